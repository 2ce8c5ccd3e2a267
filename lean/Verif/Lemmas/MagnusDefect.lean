import Verif.Lemmas.QuatExp

/-!
The defect of the truncated Magnus series: the angular velocity of the rotation whose vector is the sum of its first terms differs
from the prescribed one by a multiple of the sixth power of the time.  The vectors are written in the basis `w`, `d`, `w × d`, their
coefficients are polynomials in the time `h` and in `α = w·w`, `β = w·d`, `γ = d·d` (computed outside of Lean, checked here).
-/

set_option linter.unusedVariables false

namespace RBDyn
open scoped Mat3 Quaternion

/-- The vector of coordinates `a`, `b`, `c` in the basis `w`, `d`, `w × d`. -/
noncomputable def comb (w d : Vec3 ℝ) (a b c : ℝ) : Vec3 ℝ := a • w + b • d + c • w.cross d

theorem comb_cross (w d : Vec3 ℝ) (a b c a' b' c' : ℝ) :
    (comb w d a b c).cross (comb w d a' b' c') =
      comb w d (w.dot d * (a * c' - c * a') + d.normSq * (b * c' - c * b'))
        (-(w.normSq * (a * c' - c * a') + w.dot d * (b * c' - c * b'))) (a * b' - b * a') := by
  ext <;> simp [comb, Vec3.dot, Vec3.normSq] <;> ring

theorem comb_normSq (w d : Vec3 ℝ) (a b c : ℝ) :
    (comb w d a b c).normSq = a ^ 2 * w.normSq + 2 * a * b * w.dot d + b ^ 2 * d.normSq + c ^ 2 * (w.normSq * d.normSq - w.dot d ^ 2) := by
  simp [comb, Vec3.dot, Vec3.normSq]
  ring

theorem comb_smul (w d : Vec3 ℝ) (k a b c : ℝ) : k • comb w d a b c = comb w d (k * a) (k * b) (k * c) := by
  ext <;> simp [comb] <;> ring

theorem comb_add (w d : Vec3 ℝ) (a b c a' b' c' : ℝ) : comb w d a b c + comb w d a' b' c' = comb w d (a + a') (b + b') (c + c') := by
  ext <;> simp [comb] <;> ring

theorem comb_sub (w d : Vec3 ℝ) (a b c a' b' c' : ℝ) : comb w d a b c - comb w d a' b' c' = comb w d (a - a') (b - b') (c - c') := by
  ext <;> simp [comb] <;> ring

theorem comb_norm_le {w d : Vec3 ℝ} {M : ℝ} (hw : √w.normSq ≤ M) (hd : √d.normSq ≤ M) (a b c : ℝ) :
    √(comb w d a b c).normSq ≤ |a| * M + |b| * M + |c| * (M * M) := by
  have h0 : 0 ≤ M := (Real.sqrt_nonneg _).trans hw
  refine (vec_tri _ _).trans (add_le_add ((vec_tri _ _).trans (add_le_add ?_ ?_)) ?_)
  · rw [vec_smul]; gcongr
  · rw [vec_smul]; gcongr
  · rw [vec_smul]
    have := vec_cross w d
    have := mul_le_mul hw hd (Real.sqrt_nonneg _) h0
    gcongr
    linarith

noncomputable def mgX1 (h α β γ : ℝ) : ℝ :=
    h - h ^ 5 * γ / 240

noncomputable def mgX2 (h α β γ : ℝ) : ℝ :=
    h ^ 2 / 2 + h ^ 5 * β / 240

noncomputable def mgX3 (h α β γ : ℝ) : ℝ :=
    h ^ 3 / 12 + h ^ 5 * α / 720 + h ^ 6 * β / 720 + h ^ 7 * γ / 5040

noncomputable def mgY1 (h α β γ : ℝ) : ℝ :=
    1 - h ^ 4 * γ / 48

noncomputable def mgY2 (h α β γ : ℝ) : ℝ :=
    h + h ^ 4 * β / 48

noncomputable def mgY3 (h α β γ : ℝ) : ℝ :=
    h ^ 2 / 4 + h ^ 4 * α / 144 + h ^ 5 * β / 120 + h ^ 6 * γ / 720

noncomputable def mgT (h α β γ : ℝ) : ℝ :=
    α + h * β + h ^ 2 * γ / 4 + h ^ 4 * β ^ 2 / 720 - h ^ 4 * α * γ / 720 - h ^ 6 * α * β ^ 2 / 4320 + h ^ 6 * α ^ 2 * γ / 4320 - h ^ 7 * β ^ 3 / 4320
    + h ^ 7 * α * β * γ / 4320 - 61 * h ^ 8 * β ^ 2 * γ / 1209600 + 61 * h ^ 8 * α * γ ^ 2 / 1209600 - h ^ 8 * α ^ 2 * β ^ 2 / 518400
    + h ^ 8 * α ^ 3 * γ / 518400 - h ^ 9 * α * β ^ 3 / 259200 + h ^ 9 * α ^ 2 * β * γ / 259200 - h ^ 10 * β ^ 4 / 518400 + h ^ 10 * α * β ^ 2 * γ / 725760
    + h ^ 10 * α ^ 2 * γ ^ 2 / 1814400 - h ^ 11 * β ^ 3 * γ / 1814400 + h ^ 11 * α * β * γ ^ 2 / 1814400 - h ^ 12 * β ^ 2 * γ ^ 2 / 25401600
    + h ^ 12 * α * γ ^ 3 / 25401600

noncomputable def mgM1 (h α β γ : ℝ) : ℝ :=
    h * β / 6 + h ^ 2 * γ / 24 + h ^ 3 * α * β / 180 + h ^ 4 * β ^ 2 / 144 + h ^ 4 * α * γ / 480 + h ^ 5 * β * γ / 252 + h ^ 6 * γ ^ 2 / 2016

noncomputable def mgM2 (h α β γ : ℝ) : ℝ :=
    -h * α / 6 - h ^ 2 * β / 24 - h ^ 3 * α ^ 2 / 180 - 13 * h ^ 4 * α * β / 1440 - h ^ 5 * β ^ 2 / 480 - 19 * h ^ 5 * α * γ / 10080
    - h ^ 6 * β * γ / 2016 - h ^ 8 * β ^ 3 / 172800 + h ^ 8 * α * β * γ / 172800 - h ^ 9 * β ^ 2 * γ / 604800 + h ^ 9 * α * γ ^ 2 / 604800

noncomputable def mgM3 (h α β γ : ℝ) : ℝ :=
    1 / 2 + h ^ 3 * β / 60 + h ^ 4 * γ / 160

noncomputable def mgL1 (h α β γ : ℝ) : ℝ :=
    β / 2 + h * γ / 4 + h ^ 3 * β ^ 2 / 360 + h ^ 3 * α * γ / 72 + 7 * h ^ 4 * β * γ / 480 + h ^ 5 * γ ^ 2 / 320 - h ^ 5 * α * β ^ 2 / 1440
    + h ^ 5 * α ^ 2 * γ / 1440 - 7 * h ^ 6 * β ^ 3 / 8640 + 7 * h ^ 6 * α * β * γ / 8640 - 23 * h ^ 7 * β ^ 2 * γ / 120960 + 23 * h ^ 7 * α * γ ^ 2 / 120960
    - h ^ 7 * α ^ 2 * β ^ 2 / 129600 + h ^ 7 * α ^ 3 * γ / 129600 - h ^ 8 * α * β ^ 3 / 57600 + h ^ 8 * α ^ 2 * β * γ / 57600 - h ^ 9 * β ^ 4 / 103680
    + 43 * h ^ 9 * α * β ^ 2 * γ / 7257600 + h ^ 9 * α ^ 2 * γ ^ 2 / 268800 - 17 * h ^ 10 * β ^ 3 * γ / 4838400 + 17 * h ^ 10 * α * β * γ ^ 2 / 4838400
    - h ^ 11 * β ^ 2 * γ ^ 2 / 4233600 + h ^ 11 * α * γ ^ 3 / 4233600 + h ^ 12 * α * β ^ 3 * γ / 124416000 - h ^ 12 * α ^ 2 * β * γ ^ 2 / 124416000
    + h ^ 13 * β ^ 4 * γ / 124416000 - h ^ 13 * α * β ^ 2 * γ ^ 2 / 174182400 - h ^ 13 * α ^ 2 * γ ^ 3 / 435456000 + h ^ 14 * β ^ 3 * γ ^ 2 / 290304000
    - h ^ 14 * α * β * γ ^ 3 / 290304000 + h ^ 15 * β ^ 2 * γ ^ 3 / 3048192000 - h ^ 15 * α * γ ^ 4 / 3048192000

noncomputable def mgL2 (h α β γ : ℝ) : ℝ :=
    -α / 2 - h * β / 4 - h ^ 3 * α * β / 60 - h ^ 4 * β ^ 2 / 72 - h ^ 4 * α * γ / 1440 - h ^ 5 * β * γ / 320 - h ^ 6 * α * β ^ 2 / 4320
    + h ^ 6 * α ^ 2 * γ / 4320 - 13 * h ^ 7 * β ^ 3 / 43200 + 13 * h ^ 7 * α * β * γ / 43200 - 61 * h ^ 8 * β ^ 2 * γ / 806400 + 61 * h ^ 8 * α * γ ^ 2 / 806400
    - h ^ 8 * α ^ 2 * β ^ 2 / 345600 + h ^ 8 * α ^ 3 * γ / 345600 - h ^ 9 * α * β ^ 3 / 172800 + h ^ 9 * α ^ 2 * β * γ / 172800 - 7 * h ^ 10 * β ^ 4 / 2073600
    + 11 * h ^ 10 * α * β ^ 2 * γ / 4838400 + h ^ 10 * α ^ 2 * γ ^ 2 / 907200 - h ^ 11 * β ^ 3 * γ / 806400 + h ^ 11 * α * β * γ ^ 2 / 806400
    - h ^ 12 * β ^ 2 * γ ^ 2 / 10160640 + h ^ 12 * α * γ ^ 3 / 10160640 - h ^ 12 * α * β ^ 4 / 124416000 + h ^ 12 * α ^ 2 * β ^ 2 * γ / 124416000
    - h ^ 13 * β ^ 5 / 124416000 + h ^ 13 * α * β ^ 3 * γ / 174182400 + h ^ 13 * α ^ 2 * β * γ ^ 2 / 435456000 - h ^ 14 * β ^ 4 * γ / 290304000
    + h ^ 14 * α * β ^ 2 * γ ^ 2 / 290304000 - h ^ 15 * β ^ 3 * γ ^ 2 / 3048192000 + h ^ 15 * α * β * γ ^ 3 / 3048192000

noncomputable def mgL3 (h α β γ : ℝ) : ℝ :=
    -h * α / 6 - h ^ 2 * β / 8 - h ^ 3 * γ / 48 - h ^ 3 * α ^ 2 / 180 - 17 * h ^ 4 * α * β / 1440 - h ^ 5 * β ^ 2 / 160 - h ^ 5 * α * γ / 448
    - 5 * h ^ 6 * β * γ / 2016 - h ^ 7 * γ ^ 2 / 4032 - h ^ 7 * α * β ^ 2 / 43200 + h ^ 7 * α ^ 2 * γ / 43200 - h ^ 8 * β ^ 3 / 28800
    + h ^ 8 * α * β * γ / 28800 - 23 * h ^ 9 * β ^ 2 * γ / 2419200 + 23 * h ^ 9 * α * γ ^ 2 / 2419200 + h ^ 12 * β ^ 3 * γ / 41472000
    - h ^ 12 * α * β * γ ^ 2 / 41472000 + h ^ 13 * β ^ 2 * γ ^ 2 / 145152000 - h ^ 13 * α * γ ^ 3 / 145152000

noncomputable def mgTr (h α β γ : ℝ) : ℝ :=
    γ / 4 + h ^ 2 * β ^ 2 / 720 - h ^ 2 * α * γ / 720 - h ^ 4 * α * β ^ 2 / 4320 + h ^ 4 * α ^ 2 * γ / 4320 - h ^ 5 * β ^ 3 / 4320
    + h ^ 5 * α * β * γ / 4320 - 61 * h ^ 6 * β ^ 2 * γ / 1209600 + 61 * h ^ 6 * α * γ ^ 2 / 1209600 - h ^ 6 * α ^ 2 * β ^ 2 / 518400
    + h ^ 6 * α ^ 3 * γ / 518400 - h ^ 7 * α * β ^ 3 / 259200 + h ^ 7 * α ^ 2 * β * γ / 259200 - h ^ 8 * β ^ 4 / 518400 + h ^ 8 * α * β ^ 2 * γ / 725760
    + h ^ 8 * α ^ 2 * γ ^ 2 / 1814400 - h ^ 9 * β ^ 3 * γ / 1814400 + h ^ 9 * α * β * γ ^ 2 / 1814400 - h ^ 10 * β ^ 2 * γ ^ 2 / 25401600
    + h ^ 10 * α * γ ^ 3 / 25401600

noncomputable def mgTs (h α β γ : ℝ) : ℝ :=
    β + h * γ / 4 + h ^ 3 * β ^ 2 / 720 - h ^ 3 * α * γ / 720 - h ^ 5 * α * β ^ 2 / 4320 + h ^ 5 * α ^ 2 * γ / 4320 - h ^ 6 * β ^ 3 / 4320
    + h ^ 6 * α * β * γ / 4320 - 61 * h ^ 7 * β ^ 2 * γ / 1209600 + 61 * h ^ 7 * α * γ ^ 2 / 1209600 - h ^ 7 * α ^ 2 * β ^ 2 / 518400
    + h ^ 7 * α ^ 3 * γ / 518400 - h ^ 8 * α * β ^ 3 / 259200 + h ^ 8 * α ^ 2 * β * γ / 259200 - h ^ 9 * β ^ 4 / 518400 + h ^ 9 * α * β ^ 2 * γ / 725760
    + h ^ 9 * α ^ 2 * γ ^ 2 / 1814400 - h ^ 10 * β ^ 3 * γ / 1814400 + h ^ 10 * α * β * γ ^ 2 / 1814400 - h ^ 11 * β ^ 2 * γ ^ 2 / 25401600
    + h ^ 11 * α * γ ^ 3 / 25401600

noncomputable def mgMr1 (h α β γ : ℝ) : ℝ :=
    β ^ 2 / 144 + α * γ / 480 + h * β * γ / 252 + h ^ 2 * γ ^ 2 / 2016

noncomputable def mgMs1 (h α β γ : ℝ) : ℝ :=
    γ / 24 + h * α * β / 180 + h ^ 2 * β ^ 2 / 144 + h ^ 2 * α * γ / 480 + h ^ 3 * β * γ / 252 + h ^ 4 * γ ^ 2 / 2016

noncomputable def mgLr1 (h α β γ : ℝ) : ℝ :=
    β ^ 2 / 360 + α * γ / 72 + 7 * h * β * γ / 480 + h ^ 2 * γ ^ 2 / 320 - h ^ 2 * α * β ^ 2 / 1440 + h ^ 2 * α ^ 2 * γ / 1440 - 7 * h ^ 3 * β ^ 3 / 8640
    + 7 * h ^ 3 * α * β * γ / 8640 - 23 * h ^ 4 * β ^ 2 * γ / 120960 + 23 * h ^ 4 * α * γ ^ 2 / 120960 - h ^ 4 * α ^ 2 * β ^ 2 / 129600
    + h ^ 4 * α ^ 3 * γ / 129600 - h ^ 5 * α * β ^ 3 / 57600 + h ^ 5 * α ^ 2 * β * γ / 57600 - h ^ 6 * β ^ 4 / 103680 + 43 * h ^ 6 * α * β ^ 2 * γ / 7257600
    + h ^ 6 * α ^ 2 * γ ^ 2 / 268800 - 17 * h ^ 7 * β ^ 3 * γ / 4838400 + 17 * h ^ 7 * α * β * γ ^ 2 / 4838400 - h ^ 8 * β ^ 2 * γ ^ 2 / 4233600
    + h ^ 8 * α * γ ^ 3 / 4233600 + h ^ 9 * α * β ^ 3 * γ / 124416000 - h ^ 9 * α ^ 2 * β * γ ^ 2 / 124416000 + h ^ 10 * β ^ 4 * γ / 124416000
    - h ^ 10 * α * β ^ 2 * γ ^ 2 / 174182400 - h ^ 10 * α ^ 2 * γ ^ 3 / 435456000 + h ^ 11 * β ^ 3 * γ ^ 2 / 290304000 - h ^ 11 * α * β * γ ^ 3 / 290304000
    + h ^ 12 * β ^ 2 * γ ^ 3 / 3048192000 - h ^ 12 * α * γ ^ 4 / 3048192000

noncomputable def mgLs1 (h α β γ : ℝ) : ℝ :=
    γ / 4 + h ^ 2 * β ^ 2 / 360 + h ^ 2 * α * γ / 72 + 7 * h ^ 3 * β * γ / 480 + h ^ 4 * γ ^ 2 / 320 - h ^ 4 * α * β ^ 2 / 1440 + h ^ 4 * α ^ 2 * γ / 1440
    - 7 * h ^ 5 * β ^ 3 / 8640 + 7 * h ^ 5 * α * β * γ / 8640 - 23 * h ^ 6 * β ^ 2 * γ / 120960 + 23 * h ^ 6 * α * γ ^ 2 / 120960
    - h ^ 6 * α ^ 2 * β ^ 2 / 129600 + h ^ 6 * α ^ 3 * γ / 129600 - h ^ 7 * α * β ^ 3 / 57600 + h ^ 7 * α ^ 2 * β * γ / 57600 - h ^ 8 * β ^ 4 / 103680
    + 43 * h ^ 8 * α * β ^ 2 * γ / 7257600 + h ^ 8 * α ^ 2 * γ ^ 2 / 268800 - 17 * h ^ 9 * β ^ 3 * γ / 4838400 + 17 * h ^ 9 * α * β * γ ^ 2 / 4838400
    - h ^ 10 * β ^ 2 * γ ^ 2 / 4233600 + h ^ 10 * α * γ ^ 3 / 4233600 + h ^ 11 * α * β ^ 3 * γ / 124416000 - h ^ 11 * α ^ 2 * β * γ ^ 2 / 124416000
    + h ^ 12 * β ^ 4 * γ / 124416000 - h ^ 12 * α * β ^ 2 * γ ^ 2 / 174182400 - h ^ 12 * α ^ 2 * γ ^ 3 / 435456000 + h ^ 13 * β ^ 3 * γ ^ 2 / 290304000
    - h ^ 13 * α * β * γ ^ 3 / 290304000 + h ^ 14 * β ^ 2 * γ ^ 3 / 3048192000 - h ^ 14 * α * γ ^ 4 / 3048192000

noncomputable def mgG1 (h α β γ : ℝ) : ℝ :=
    β ^ 2 / 144 - mgMr1 h α β γ / 2 + mgLr1 h α β γ / 6 +
    ((α + h * β) * mgMs1 h α β γ + mgTr h α β γ * mgM1 h α β γ) / 24 -
    ((α) * mgLs1 h α β γ + mgTs h α β γ * mgL1 h α β γ) / 120

noncomputable def mgMr2 (h α β γ : ℝ) : ℝ :=
    -13 * α * β / 1440 - h * β ^ 2 / 480 - 19 * h * α * γ / 10080 - h ^ 2 * β * γ / 2016 - h ^ 4 * β ^ 3 / 172800 + h ^ 4 * α * β * γ / 172800
    - h ^ 5 * β ^ 2 * γ / 604800 + h ^ 5 * α * γ ^ 2 / 604800

noncomputable def mgMs2 (h α β γ : ℝ) : ℝ :=
    -β / 24 - h * α ^ 2 / 180 - 13 * h ^ 2 * α * β / 1440 - h ^ 3 * β ^ 2 / 480 - 19 * h ^ 3 * α * γ / 10080 - h ^ 4 * β * γ / 2016
    - h ^ 6 * β ^ 3 / 172800 + h ^ 6 * α * β * γ / 172800 - h ^ 7 * β ^ 2 * γ / 604800 + h ^ 7 * α * γ ^ 2 / 604800

noncomputable def mgLr2 (h α β γ : ℝ) : ℝ :=
    -α * β / 60 - h * β ^ 2 / 72 - h * α * γ / 1440 - h ^ 2 * β * γ / 320 - h ^ 3 * α * β ^ 2 / 4320 + h ^ 3 * α ^ 2 * γ / 4320 - 13 * h ^ 4 * β ^ 3 / 43200
    + 13 * h ^ 4 * α * β * γ / 43200 - 61 * h ^ 5 * β ^ 2 * γ / 806400 + 61 * h ^ 5 * α * γ ^ 2 / 806400 - h ^ 5 * α ^ 2 * β ^ 2 / 345600
    + h ^ 5 * α ^ 3 * γ / 345600 - h ^ 6 * α * β ^ 3 / 172800 + h ^ 6 * α ^ 2 * β * γ / 172800 - 7 * h ^ 7 * β ^ 4 / 2073600 + 11 * h ^ 7 * α * β ^ 2 * γ / 4838400
    + h ^ 7 * α ^ 2 * γ ^ 2 / 907200 - h ^ 8 * β ^ 3 * γ / 806400 + h ^ 8 * α * β * γ ^ 2 / 806400 - h ^ 9 * β ^ 2 * γ ^ 2 / 10160640
    + h ^ 9 * α * γ ^ 3 / 10160640 - h ^ 9 * α * β ^ 4 / 124416000 + h ^ 9 * α ^ 2 * β ^ 2 * γ / 124416000 - h ^ 10 * β ^ 5 / 124416000
    + h ^ 10 * α * β ^ 3 * γ / 174182400 + h ^ 10 * α ^ 2 * β * γ ^ 2 / 435456000 - h ^ 11 * β ^ 4 * γ / 290304000 + h ^ 11 * α * β ^ 2 * γ ^ 2 / 290304000
    - h ^ 12 * β ^ 3 * γ ^ 2 / 3048192000 + h ^ 12 * α * β * γ ^ 3 / 3048192000

noncomputable def mgLs2 (h α β γ : ℝ) : ℝ :=
    -β / 4 - h ^ 2 * α * β / 60 - h ^ 3 * β ^ 2 / 72 - h ^ 3 * α * γ / 1440 - h ^ 4 * β * γ / 320 - h ^ 5 * α * β ^ 2 / 4320 + h ^ 5 * α ^ 2 * γ / 4320
    - 13 * h ^ 6 * β ^ 3 / 43200 + 13 * h ^ 6 * α * β * γ / 43200 - 61 * h ^ 7 * β ^ 2 * γ / 806400 + 61 * h ^ 7 * α * γ ^ 2 / 806400
    - h ^ 7 * α ^ 2 * β ^ 2 / 345600 + h ^ 7 * α ^ 3 * γ / 345600 - h ^ 8 * α * β ^ 3 / 172800 + h ^ 8 * α ^ 2 * β * γ / 172800 - 7 * h ^ 9 * β ^ 4 / 2073600
    + 11 * h ^ 9 * α * β ^ 2 * γ / 4838400 + h ^ 9 * α ^ 2 * γ ^ 2 / 907200 - h ^ 10 * β ^ 3 * γ / 806400 + h ^ 10 * α * β * γ ^ 2 / 806400
    - h ^ 11 * β ^ 2 * γ ^ 2 / 10160640 + h ^ 11 * α * γ ^ 3 / 10160640 - h ^ 11 * α * β ^ 4 / 124416000 + h ^ 11 * α ^ 2 * β ^ 2 * γ / 124416000
    - h ^ 12 * β ^ 5 / 124416000 + h ^ 12 * α * β ^ 3 * γ / 174182400 + h ^ 12 * α ^ 2 * β * γ ^ 2 / 435456000 - h ^ 13 * β ^ 4 * γ / 290304000
    + h ^ 13 * α * β ^ 2 * γ ^ 2 / 290304000 - h ^ 14 * β ^ 3 * γ ^ 2 / 3048192000 + h ^ 14 * α * β * γ ^ 3 / 3048192000

noncomputable def mgG2 (h α β γ : ℝ) : ℝ :=
    -α * β / 144 - mgMr2 h α β γ / 2 + mgLr2 h α β γ / 6 +
    ((α + h * β) * mgMs2 h α β γ + mgTr h α β γ * mgM2 h α β γ) / 24 -
    ((α) * mgLs2 h α β γ + mgTs h α β γ * mgL2 h α β γ) / 120

noncomputable def mgMr3 (h α β γ : ℝ) : ℝ :=
    γ / 160

noncomputable def mgMs3 (h α β γ : ℝ) : ℝ :=
    h * β / 60 + h ^ 2 * γ / 160

noncomputable def mgLr3 (h α β γ : ℝ) : ℝ :=
    -γ / 48 - α ^ 2 / 180 - 17 * h * α * β / 1440 - h ^ 2 * β ^ 2 / 160 - h ^ 2 * α * γ / 448 - 5 * h ^ 3 * β * γ / 2016 - h ^ 4 * γ ^ 2 / 4032
    - h ^ 4 * α * β ^ 2 / 43200 + h ^ 4 * α ^ 2 * γ / 43200 - h ^ 5 * β ^ 3 / 28800 + h ^ 5 * α * β * γ / 28800 - 23 * h ^ 6 * β ^ 2 * γ / 2419200
    + 23 * h ^ 6 * α * γ ^ 2 / 2419200 + h ^ 9 * β ^ 3 * γ / 41472000 - h ^ 9 * α * β * γ ^ 2 / 41472000 + h ^ 10 * β ^ 2 * γ ^ 2 / 145152000
    - h ^ 10 * α * γ ^ 3 / 145152000

noncomputable def mgLs3 (h α β γ : ℝ) : ℝ :=
    -α / 6 - h * β / 8 - h ^ 2 * γ / 48 - h ^ 2 * α ^ 2 / 180 - 17 * h ^ 3 * α * β / 1440 - h ^ 4 * β ^ 2 / 160 - h ^ 4 * α * γ / 448
    - 5 * h ^ 5 * β * γ / 2016 - h ^ 6 * γ ^ 2 / 4032 - h ^ 6 * α * β ^ 2 / 43200 + h ^ 6 * α ^ 2 * γ / 43200 - h ^ 7 * β ^ 3 / 28800
    + h ^ 7 * α * β * γ / 28800 - 23 * h ^ 8 * β ^ 2 * γ / 2419200 + 23 * h ^ 8 * α * γ ^ 2 / 2419200 + h ^ 11 * β ^ 3 * γ / 41472000
    - h ^ 11 * α * β * γ ^ 2 / 41472000 + h ^ 12 * β ^ 2 * γ ^ 2 / 145152000 - h ^ 12 * α * γ ^ 3 / 145152000

noncomputable def mgG3 (h α β γ : ℝ) : ℝ :=
    γ / 720 - mgMr3 h α β γ / 2 + mgLr3 h α β γ / 6 +
    ((α + h * β) * mgMs3 h α β γ + mgTr h α β γ * mgM3 h α β γ) / 24 -
    ((α) * mgLs3 h α β γ + mgTs h α β γ * mgL3 h α β γ) / 120

/-- The sum of the first four terms of the Magnus series of the velocity `w + s d` on `[0, h]`. -/
noncomputable def magnusSum (w d : Vec3 ℝ) (h : ℝ) : Vec3 ℝ :=
  comb w d (mgX1 h w.normSq (w.dot d) d.normSq) (mgX2 h w.normSq (w.dot d) d.normSq) (mgX3 h w.normSq (w.dot d) d.normSq)

/-- Its derivative. -/
noncomputable def magnusSumD (w d : Vec3 ℝ) (h : ℝ) : Vec3 ℝ :=
  comb w d (mgY1 h w.normSq (w.dot d) d.normSq) (mgY2 h w.normSq (w.dot d) d.normSq) (mgY3 h w.normSq (w.dot d) d.normSq)

theorem mgX_deriv (h α β γ : ℝ) : HasDerivAt (fun h => mgX1 h α β γ) (mgY1 h α β γ) h ∧
    HasDerivAt (fun h => mgX2 h α β γ) (mgY2 h α β γ) h ∧ HasDerivAt (fun h => mgX3 h α β γ) (mgY3 h α β γ) h := by
  refine ⟨?_, ?_, ?_⟩
  · exact ((hasDerivAt_id h).sub (((hasDerivAt_pow 5 h).mul_const γ).div_const 240)).congr_deriv (by simp [mgY1]; ring)
  · exact (((hasDerivAt_pow 2 h).div_const 2).add (((hasDerivAt_pow 5 h).mul_const β).div_const 240)).congr_deriv (by simp [mgY2]; ring)
  · exact (((((hasDerivAt_pow 3 h).div_const 12).add (((hasDerivAt_pow 5 h).mul_const α).div_const 720)).add
      (((hasDerivAt_pow 6 h).mul_const β).div_const 720)).add (((hasDerivAt_pow 7 h).mul_const γ).div_const 5040)).congr_deriv
        (by simp [mgY3]; ring)

theorem magnusSum_deriv (w d : Vec3 ℝ) (h : ℝ) : HasDerivVec (magnusSum w d) (magnusSumD w d h) h := by
  obtain ⟨h1, h2, h3⟩ := mgX_deriv h w.normSq (w.dot d) d.normSq
  refine ⟨?_, ?_, ?_⟩
  · exact ((h1.mul_const w.x).add (h2.mul_const d.x)).add (h3.mul_const (w.cross d).x)
  · exact ((h1.mul_const w.y).add (h2.mul_const d.y)).add (h3.mul_const (w.cross d).y)
  · exact ((h1.mul_const w.z).add (h2.mul_const d.z)).add (h3.mul_const (w.cross d).z)

theorem magnusSum_cross (w d : Vec3 ℝ) (h : ℝ) : (magnusSum w d h).cross (magnusSumD w d h) =
    comb w d (h ^ 2 * mgM1 h w.normSq (w.dot d) d.normSq) (h ^ 2 * mgM2 h w.normSq (w.dot d) d.normSq)
      (h ^ 2 * mgM3 h w.normSq (w.dot d) d.normSq) := by
  unfold magnusSum magnusSumD
  rw [comb_cross]
  generalize w.normSq = α
  generalize w.dot d = β
  generalize d.normSq = γ
  congr 1
  · simp only [mgX1, mgX2, mgX3, mgY1, mgY2, mgY3, mgM1]; ring
  · simp only [mgX1, mgX2, mgX3, mgY1, mgY2, mgY3, mgM2]; ring
  · simp only [mgX1, mgX2, mgY1, mgY2, mgM3]; ring

theorem magnusSum_cross2 (w d : Vec3 ℝ) (h : ℝ) : (magnusSum w d h).cross ((magnusSum w d h).cross (magnusSumD w d h)) =
    comb w d (h ^ 3 * mgL1 h w.normSq (w.dot d) d.normSq) (h ^ 3 * mgL2 h w.normSq (w.dot d) d.normSq)
      (h ^ 3 * mgL3 h w.normSq (w.dot d) d.normSq) := by
  rw [magnusSum_cross]
  unfold magnusSum
  rw [comb_cross]
  generalize w.normSq = α
  generalize w.dot d = β
  generalize d.normSq = γ
  congr 1
  · simp only [mgX1, mgX2, mgX3, mgM1, mgM2, mgM3, mgL1]; ring
  · simp only [mgX1, mgX2, mgX3, mgM1, mgM2, mgM3, mgL2]; ring
  · simp only [mgX1, mgX2, mgM1, mgM2, mgL3]; ring

theorem magnusSum_normSq (w d : Vec3 ℝ) (h : ℝ) : (magnusSum w d h).normSq = h ^ 2 * mgT h w.normSq (w.dot d) d.normSq := by
  unfold magnusSum
  rw [comb_normSq]
  generalize w.normSq = α
  generalize w.dot d = β
  generalize d.normSq = γ
  simp only [mgX1, mgX2, mgX3, mgT]; ring

theorem mgT_split (h α β γ : ℝ) : mgT h α β γ = α + h * β + h ^ 2 * mgTr h α β γ ∧ mgT h α β γ = α + h * mgTs h α β γ := by
  constructor
  · simp only [mgT, mgTr]; ring
  · simp only [mgT, mgTs]; ring

theorem mgM1_split (h α β γ : ℝ) : mgM1 h α β γ = h * β / 6 + h ^ 2 * γ / 24 + h ^ 3 * α * β / 180 + h ^ 4 * mgMr1 h α β γ ∧
    mgM1 h α β γ = h * β / 6 + h ^ 2 * mgMs1 h α β γ := by
  constructor
  · simp only [mgM1, mgMr1]; ring
  · simp only [mgM1, mgMs1]; ring

theorem mgL1_split (h α β γ : ℝ) : mgL1 h α β γ = β / 2 + h * γ / 4 + h ^ 3 * mgLr1 h α β γ ∧
    mgL1 h α β γ = β / 2 + h * mgLs1 h α β γ := by
  constructor
  · simp only [mgL1, mgLr1]; ring
  · simp only [mgL1, mgLs1]; ring

theorem mgM2_split (h α β γ : ℝ) : mgM2 h α β γ = -h * α / 6 - h ^ 2 * β / 24 - h ^ 3 * α ^ 2 / 180 + h ^ 4 * mgMr2 h α β γ ∧
    mgM2 h α β γ = -h * α / 6 + h ^ 2 * mgMs2 h α β γ := by
  constructor
  · simp only [mgM2, mgMr2]; ring
  · simp only [mgM2, mgMs2]; ring

theorem mgL2_split (h α β γ : ℝ) : mgL2 h α β γ = -α / 2 - h * β / 4 + h ^ 3 * mgLr2 h α β γ ∧
    mgL2 h α β γ = -α / 2 + h * mgLs2 h α β γ := by
  constructor
  · simp only [mgL2, mgLr2]; ring
  · simp only [mgL2, mgLs2]; ring

theorem mgM3_split (h α β γ : ℝ) : mgM3 h α β γ = 1 / 2 + h ^ 3 * β / 60 + h ^ 4 * mgMr3 h α β γ ∧
    mgM3 h α β γ = 1 / 2 + h ^ 2 * mgMs3 h α β γ := by
  constructor
  · simp only [mgM3, mgMr3]; ring
  · simp only [mgM3, mgMs3]; ring

theorem mgL3_split (h α β γ : ℝ) : mgL3 h α β γ = -h * α / 6 - h ^ 2 * β / 8 + h ^ 3 * mgLr3 h α β γ ∧
    mgL3 h α β γ = 0 + h * mgLs3 h α β γ := by
  constructor
  · simp only [mgL3, mgLr3]; ring
  · simp only [mgL3, mgLs3]; ring

theorem mg_defect1 (h α β γ : ℝ) :
    mgY1 h α β γ - (1 / 2 - h ^ 2 * mgT h α β γ / 24) * (h ^ 2 * mgM1 h α β γ) +
      (1 / 6 - h ^ 2 * mgT h α β γ / 120) * (h ^ 3 * mgL1 h α β γ) - 1 = h ^ 6 * mgG1 h α β γ := by
  obtain ⟨t1, t2⟩ := mgT_split h α β γ
  obtain ⟨m1, m2⟩ := mgM1_split h α β γ
  obtain ⟨l1, l2⟩ := mgL1_split h α β γ
  simp only [mgG1, mgY1]
  linear_combination -h ^ 2 / 2 * m1 + h ^ 3 / 6 * l1 + h ^ 4 / 24 * mgM1 h α β γ * t1 + h ^ 4 / 24 * (α + h * β) * m2 -
    h ^ 5 / 120 * mgL1 h α β γ * t2 - h ^ 5 / 120 * (α) * l2

theorem mg_defect2 (h α β γ : ℝ) :
    mgY2 h α β γ - (1 / 2 - h ^ 2 * mgT h α β γ / 24) * (h ^ 2 * mgM2 h α β γ) +
      (1 / 6 - h ^ 2 * mgT h α β γ / 120) * (h ^ 3 * mgL2 h α β γ) - h = h ^ 6 * mgG2 h α β γ := by
  obtain ⟨t1, t2⟩ := mgT_split h α β γ
  obtain ⟨m1, m2⟩ := mgM2_split h α β γ
  obtain ⟨l1, l2⟩ := mgL2_split h α β γ
  simp only [mgG2, mgY2]
  linear_combination -h ^ 2 / 2 * m1 + h ^ 3 / 6 * l1 + h ^ 4 / 24 * mgM2 h α β γ * t1 + h ^ 4 / 24 * (α + h * β) * m2 -
    h ^ 5 / 120 * mgL2 h α β γ * t2 - h ^ 5 / 120 * (α) * l2

theorem mg_defect3 (h α β γ : ℝ) :
    mgY3 h α β γ - (1 / 2 - h ^ 2 * mgT h α β γ / 24) * (h ^ 2 * mgM3 h α β γ) +
      (1 / 6 - h ^ 2 * mgT h α β γ / 120) * (h ^ 3 * mgL3 h α β γ) - 0 = h ^ 6 * mgG3 h α β γ := by
  obtain ⟨t1, t2⟩ := mgT_split h α β γ
  obtain ⟨m1, m2⟩ := mgM3_split h α β γ
  obtain ⟨l1, l2⟩ := mgL3_split h α β γ
  simp only [mgG3, mgY3]
  linear_combination -h ^ 2 / 2 * m1 + h ^ 3 / 6 * l1 + h ^ 4 / 24 * mgM3 h α β γ * t1 + h ^ 4 / 24 * (α + h * β) * m2 -
    h ^ 5 / 120 * mgL3 h α β γ * t2 - h ^ 5 / 120 * (α) * l2

end RBDyn

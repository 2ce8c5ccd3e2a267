import Mathlib.Analysis.SpecialFunctions.Sqrt
import Mathlib.Analysis.SpecialFunctions.Trigonometric.Sinc
import Verif.Model.Config

/-!
Model of `src/RBDyn/NumericalIntegration.cpp`, over `ℝ` (square roots are needed).

The recursive integrators take a fuel, `Err.diverges` stands for a recursion deeper than the fuel.  `sva::sinc` is the function
`sin x / x` extended by `1` at zero.  The conversion to `int` of a NaN or of an infinity (lines 124 and 213) is undefined
behaviour; overflow of `int` is not modelled.
-/

namespace RBDyn
open scoped Mat3

/-- `std::numeric_limits<double>::epsilon()`. -/
noncomputable def dblEps : ℝ := 1 / 2 ^ 52

/-- `magnusExpansion`, NumericalIntegration.cpp:26-67. -/
noncomputable def magnusExpansion (w wD : Vec3 ℝ) (step relEps absEps : ℝ) : Vec3 ℝ × Bool :=
  let step2 := step * step
  let sqnd := wD.normSq
  let w1 := w + step • wD
  let O1 := (step / 2) • (w + w1)
  if sqnd < absEps then (O1, false) else
  let O2 := (step2 / 12) • w.cross w1
  let sqn1 := O1.normSq
  let sqn2 := O2.normSq
  let sqndt4 := sqnd * step2 * step2
  let sqn3 := sqndt4 * sqn2 / 400
  let sqn4 := sqn1 * sqn1 * sqn2 / 3600
  let rel2 := if 0 < sqn1 then relEps * relEps * sqn1 else 1
  let eps2 := min rel2 (absEps * absEps)
  if sqn3 < eps2 ∧ sqn4 < eps2 then (O1 + O2, false) else
  let O3 := (step2 / 20) • wD.cross O2
  let O4 := ((28 * sqn1 - 3 * sqndt4) / 1680) • O2
  let sqn5 := (sqndt4 * sqn1 + 8 * √(sqndt4 * sqn1 * sqn2) + 16 * sqn2) * sqn1 * sqn2 / (840 * 840)
  if sqn5 < eps2 then (O1 + O2 + O3 + O4, false) else
  let O5 := (1 / 5040 : ℝ) • ((120 * sqn1 - 5 * sqndt4) • O3 - (24 * sqn2) • O1)
  (O1 + O2 + O3 + O4 + O5, true)

/-- The vector `u` of `fourthDerivativeSquaredNormFree`, NumericalIntegration.cpp:78-88. -/
def fourthDerivativeFree {K : Type} [Scalar K] (v w dv dw : Vec3 K) : Vec3 K :=
  let nw2 := w.normSq
  let nw4 := nw2 * nw2
  let ndw2 := dw.normSq
  let wv := w.dot v
  let wdw := w.dot dw
  let dwv := dw.dot v
  let wdv := w.dot dv
  let dwdv := dw.dot dv
  (nw4 - 3 * ndw2) • v - (12 * wdw) • dv + (4 * dwdv - nw2 * wv) • w + (3 * dwv + 8 * wdv) • dw
    - w.cross ((5 * wdw) • v + (4 * nw2) • dv) - dw.cross ((2 * wv) • w + nw2 • v)

/-- `fourthDerivativeSquaredNormFree`, NumericalIntegration.cpp:76-91. -/
def fourthDerivativeSquaredNormFree {K : Type} [Scalar K] (v w dv dw : Vec3 K) : K :=
  (fourthDerivativeFree v w dv dw).normSq

/-- The vector `u` of `fourthDerivativeSquaredNormPlanar`, NumericalIntegration.cpp:102-106 (`Vector2d` as a pair). -/
def fourthDerivativePlanar {K : Type} [Scalar K] (v : K × K) (w : K) (dv : K × K) (dw : K) : K × K :=
  let w2 := w * w
  let Mv := (-v.2, v.1)
  let Mdv := (-dv.2, dv.1)
  ((w2 * w2 - 3 * dw * dw) * v.1 - 6 * dw * w2 * Mv.1 - 12 * dw * w * dv.1 - 4 * w * w2 * Mdv.1,
   (w2 * w2 - 3 * dw * dw) * v.2 - 6 * dw * w2 * Mv.2 - 12 * dw * w * dv.2 - 4 * w * w2 * Mdv.2)

/-- `fourthDerivativeSquaredNormPlanar`, NumericalIntegration.cpp:100-109. -/
def fourthDerivativeSquaredNormPlanar {K : Type} [Scalar K] (v : K × K) (w : K) (dv : K × K) (dw : K) : K :=
  let u := fourthDerivativePlanar v w dv dw
  u.1 * u.1 + u.2 * u.2

/-- `SO3Integration`, NumericalIntegration.cpp:251-273; default precisions NumericalIntegration.h:36-38. -/
noncomputable def SO3Integration (qi : Quat ℝ) (wi wD : Vec3 ℝ) (step : ℝ) (relEps : ℝ := 1 / 10 ^ 12)
    (absEps : ℝ := dblEps) (breakOnWarning : Bool := false) : Quat ℝ × Bool :=
  let mag := magnusExpansion wi wD step relEps absEps
  if breakOnWarning && mag.2 then (qi, true) else
  let O := (1 / 2 : ℝ) • mag.1
  let n := √O.normSq
  let s := Real.sinc n
  let qexp : Quat ℝ := ⟨Real.cos n, s * O.x, s * O.y, s * O.z⟩
  (qi.mul qexp, mag.2)

/-- The number of sub-steps, NumericalIntegration.cpp:124-125 and 213-214. -/
noncomputable def subSteps (errMax step prec : ℝ) : Res Int :=
  if prec = 0 then .error .ub else
  if errMax * step / (180 * prec) < 0 then .error .ub else
  let n := ⌈step / 2 * √(√(errMax * step / (180 * prec)))⌉
  if n = 0 then .ok 1 else .ok n

/-- Loop body of `freeJointIntegration_`, NumericalIntegration.cpp:131-141; the state is `(H.first, H.second, vi, wi)`. -/
noncomputable def freeSubStep (wD vD : Vec3 ℝ) (h : ℝ) (s : Quat ℝ × Vec3 ℝ × Vec3 ℝ × Vec3 ℝ) (_ : Nat) :
    Quat ℝ × Vec3 ℝ × Vec3 ℝ × Vec3 ℝ :=
  let (q, x, vi, wi) := s
  let vh := vi + (h / 2) • vD
  let ve := vi + h • vD
  let qh := (SO3Integration q wi wD (h / 2)).1
  let qe := (SO3Integration q wi wD h).1
  (qe, x + h • ((4 : ℝ) • (qh.toRot *ᵥ vh) + (2 : ℝ) • (qe.toRot *ᵥ ve)), ve, wi + h • wD)

/-- `freeJointIntegration_`, NumericalIntegration.cpp:111-151.  `q * v` of a quaternion and a vector is
`q.toRotationMatrix() * v`. -/
noncomputable def freeJointIntegration_ (qi : Quat ℝ) (xi : Vec3 ℝ) (qf : Quat ℝ) (wi vi wD vD : Vec3 ℝ) (step prec : ℝ) :
    Res (Quat ℝ × Vec3 ℝ) := do
  let erri := fourthDerivativeSquaredNormFree vi wi vD wD
  let errf := fourthDerivativeSquaredNormFree (vi + step • vD) (wi + step • wD) vD wD
  let errMax := √(max erri errf)
  let n ← subSteps errMax step prec
  let nthStep := step / n
  let s := (List.range (n - 1).toNat).foldl (freeSubStep wD vD nthStep)
    (qi, (6 : ℝ) • xi + nthStep • (qi.toRot *ᵥ vi), vi, wi)
  let (q, x, vi, wi) := s
  let vh := vi + (nthStep / 2) • vD
  let vf := vi + nthStep • vD
  let qh := (SO3Integration q wi wD (nthStep / 2)).1
  return (qf, (1 / 6 : ℝ) • (x + nthStep • ((4 : ℝ) • (qh.toRot *ᵥ vh) + qf.toRot *ᵥ vf)))

/-- `freeJointIntegration`, NumericalIntegration.cpp:153-173. -/
noncomputable def freeJointIntegration : Nat → Quat ℝ → Vec3 ℝ → Vec3 ℝ → Vec3 ℝ → Vec3 ℝ → Vec3 ℝ → ℝ → ℝ →
    Res (Quat ℝ × Vec3 ℝ)
  | 0, _, _, _, _, _, _, _, _ => .error .diverges
  | fuel + 1, qi, xi, wi, vi, wD, vD, step, prec =>
    let qf := SO3Integration qi wi wD step prec prec
    if !qf.2 then freeJointIntegration_ qi xi qf.1 wi vi wD vD step prec
    else do
      let halfStep := step / 2
      let H ← freeJointIntegration fuel qi xi wi vi wD vD halfStep prec
      freeJointIntegration fuel H.1 H.2 (wi + halfStep • wD) (vi + halfStep • vD) wD vD halfStep prec

/-- `sphericalJointIntegration`, NumericalIntegration.cpp:175-192. -/
noncomputable def sphericalJointIntegration : Nat → Quat ℝ → Vec3 ℝ → Vec3 ℝ → ℝ → ℝ → Res (Quat ℝ)
  | 0, _, _, _, _, _ => .error .diverges
  | fuel + 1, qi, wi, wD, step, prec =>
    let qf := SO3Integration qi wi wD step prec prec true
    if !qf.2 then .ok qf.1
    else do
      let halfStep := step / 2
      let q ← sphericalJointIntegration fuel qi wi wD halfStep prec
      sphericalJointIntegration fuel q (wi + halfStep • wD) wD halfStep prec

/-- `R(q) * v`, NumericalIntegration.cpp:194-199. -/
noncomputable def rot2 (q : ℝ) (v : ℝ × ℝ) : ℝ × ℝ :=
  (Real.cos q * v.1 - Real.sin q * v.2, Real.sin q * v.1 + Real.cos q * v.2)

/-- `R(q).transpose() * v`. -/
noncomputable def rot2T (q : ℝ) (v : ℝ × ℝ) : ℝ × ℝ :=
  (Real.cos q * v.1 + Real.sin q * v.2, -Real.sin q * v.1 + Real.cos q * v.2)

/-- Loop body of `planarJointIntegration`, NumericalIntegration.cpp:222-232; the state is `(H.first, H.second, vi, wi)`. -/
noncomputable def planarSubStep (wD : ℝ) (vD : ℝ × ℝ) (h : ℝ) (s : ℝ × (ℝ × ℝ) × (ℝ × ℝ) × ℝ) (_ : Nat) :
    ℝ × (ℝ × ℝ) × (ℝ × ℝ) × ℝ :=
  let (q, x, vi, wi) := s
  let vh := vi + (h / 2) • vD
  let ve := vi + h • vD
  let qh := q + wi * (h / 2) + wD * (h / 2 * (h / 2) / 2)
  let qe := q + wi * h + wD * (h * (h / 2))
  (qe, x + h • ((4 : ℝ) • rot2 qh vh + (2 : ℝ) • rot2 qe ve), ve, wi + h * wD)

/-- `planarJointIntegration`, NumericalIntegration.cpp:201-244. -/
noncomputable def planarJointIntegration (qi : ℝ) (xi : ℝ × ℝ) (wi : ℝ) (vi : ℝ × ℝ) (wD : ℝ) (vD : ℝ × ℝ) (step prec : ℝ) :
    Res (ℝ × (ℝ × ℝ)) := do
  let erri := fourthDerivativeSquaredNormPlanar vi wi vD wD
  let errf := fourthDerivativeSquaredNormPlanar (vi + step • vD) (wi + step * wD) vD wD
  let errMax := √(max erri errf)
  let n ← subSteps errMax step prec
  let h := step / n
  let s := (List.range (n - 1).toNat).foldl (planarSubStep wD vD h) (qi, rot2 qi ((6 : ℝ) • xi + h • vi), vi, wi)
  let (q, x, vi, wi) := s
  let vh := vi + (h / 2) • vD
  let vf := vi + h • vD
  let qh := q + wi * (h / 2) + wD * (h / 2 * (h / 2) / 2)
  let qf := q + (wi * h + wD * (h * (h / 2)))
  let x := x + h • ((4 : ℝ) • rot2 qh vh + rot2 qf vf)
  return (qf, rot2T qf ((1 / 6 : ℝ) • x))

/-- `jointIntegration`, NumericalIntegration.cpp:275-356.  `normalize()` leaves a zero quaternion as it is; dividing by a zero norm
(line 326) gives NaN in C++ and zero here. -/
noncomputable def jointIntegration (fuel : Nat) (type : JointType) (alpha alphaD : List ℝ) (step : ℝ) (q : List ℝ)
    (prec : ℝ := 1 / 10 ^ 10) : Res (List ℝ) :=
  match type with
  | .Rev | .Prism => do
    let step2 := step * step
    wr q 0 ((← rd q 0) + ((← rd alpha 0) * step + (← rd alphaD 0) * step2 / 2))
  | .Planar => do
    let xi := (← rd q 1, ← rd q 2)
    let vi := (← rd alpha 1, ← rd alpha 2)
    let vD := (← rd alphaD 1, ← rd alphaD 2)
    let H ← planarJointIntegration (← rd q 0) xi (← rd alpha 0) vi (← rd alphaD 0) vD step prec
    let q ← wr q 0 H.1
    let q ← wr q 1 H.2.1
    wr q 2 H.2.2
  | .Cylindrical => do
    let step2 := step * step
    let q ← wr q 0 ((← rd q 0) + ((← rd alpha 0) * step + (← rd alphaD 0) * step2 / 2))
    wr q 1 ((← rd q 1) + ((← rd alpha 1) * step + (← rd alphaD 1) * step2 / 2))
  | .Free => do
    let qi : Quat ℝ := ⟨← rd q 0, ← rd q 1, ← rd q 2, ← rd q 3⟩
    let xi : Vec3 ℝ := ⟨← rd q 4, ← rd q 5, ← rd q 6⟩
    let wi : Vec3 ℝ := ⟨← rd alpha 0, ← rd alpha 1, ← rd alpha 2⟩
    let wD : Vec3 ℝ := ⟨← rd alphaD 0, ← rd alphaD 1, ← rd alphaD 2⟩
    let vi : Vec3 ℝ := ⟨← rd alpha 3, ← rd alpha 4, ← rd alpha 5⟩
    let vD : Vec3 ℝ := ⟨← rd alphaD 3, ← rd alphaD 4, ← rd alphaD 5⟩
    let H ← freeJointIntegration fuel qi xi wi vi wD vD step prec
    let nq := √H.1.normSq
    let q ← wr q 0 (H.1.w / nq)
    let q ← wr q 1 (H.1.x / nq)
    let q ← wr q 2 (H.1.y / nq)
    let q ← wr q 3 (H.1.z / nq)
    let q ← wr q 4 H.2.x
    let q ← wr q 5 H.2.y
    wr q 6 H.2.z
  | .Spherical => do
    let qi : Quat ℝ := ⟨← rd q 0, ← rd q 1, ← rd q 2, ← rd q 3⟩
    let wi : Vec3 ℝ := ⟨← rd alpha 0, ← rd alpha 1, ← rd alpha 2⟩
    let wD : Vec3 ℝ := ⟨← rd alphaD 0, ← rd alphaD 1, ← rd alphaD 2⟩
    let qf ← sphericalJointIntegration fuel qi wi wD step prec
    let nq := √qf.normSq
    let qf : Quat ℝ := if 0 < qf.normSq then ⟨qf.w / nq, qf.x / nq, qf.y / nq, qf.z / nq⟩ else qf
    let q ← wr q 0 qf.w
    let q ← wr q 1 qf.x
    let q ← wr q 2 qf.y
    wr q 3 qf.z
  | .Fixed => return q

/-- Inner loop of `integration`, NumericalIntegration.cpp:366-369. -/
noncomputable def velStep (alphaD : List ℝ) (step : ℝ) (alpha : List ℝ) (j : Nat) : Res (List ℝ) := do
  wr alpha j ((← rd alpha j) + (← rd alphaD j) * step)

/-- Loop body of `integration`, NumericalIntegration.cpp:365-369. -/
noncomputable def integrationStep (fuel : Nat) (mb : MultiBody ℝ) (step prec : ℝ) (mbc : MBC ℝ) (i : Nat) : Res (MBC ℝ) := do
  let j ← rd mb.joints i
  let alpha ← rd mbc.alpha i
  let alphaD ← rd mbc.alphaD i
  let qi ← jointIntegration fuel j.type alpha alphaD step (← rd mbc.q i) prec
  let q ← wr mbc.q i qi
  let ai ← (List.range j.dof).foldlM (velStep alphaD step) alpha
  let alpha ← wr mbc.alpha i ai
  return { mbc with q, alpha }

/-- `integration`, NumericalIntegration.cpp:358-371. -/
noncomputable def integration (fuel : Nat) (mb : MultiBody ℝ) (mbc : MBC ℝ) (step : ℝ) (prec : ℝ := 1 / 10 ^ 10) : Res (MBC ℝ) :=
  (List.range mb.joints.length).foldlM (integrationStep fuel mb step prec) mbc

/-- `sIntegration`, NumericalIntegration.cpp:373-380. -/
noncomputable def sIntegration (fuel : Nat) (mb : MultiBody ℝ) (mbc : MBC ℝ) (step : ℝ) (prec : ℝ := 1 / 10 ^ 10) :
    Res (MBC ℝ) := do
  checkMatchQ mb mbc
  checkMatchAlpha mb mbc
  checkMatchAlphaD mb mbc
  integration fuel mb mbc step prec

/-- `eulerJointIntegration`, NumericalIntegration.cpp:382-389. -/
noncomputable def eulerJointIntegration (fuel : Nat) (type : JointType) (alpha alphaD : List ℝ) (step : ℝ) (q : List ℝ) :
    Res (List ℝ) :=
  jointIntegration fuel type alpha alphaD step q

/-- `eulerIntegration`, NumericalIntegration.cpp:391-394. -/
noncomputable def eulerIntegration (fuel : Nat) (mb : MultiBody ℝ) (mbc : MBC ℝ) (step : ℝ) : Res (MBC ℝ) :=
  integration fuel mb mbc step

/-- `sEulerIntegration`, NumericalIntegration.cpp:396-399. -/
noncomputable def sEulerIntegration (fuel : Nat) (mb : MultiBody ℝ) (mbc : MBC ℝ) (step : ℝ) : Res (MBC ℝ) :=
  sIntegration fuel mb mbc step

end RBDyn

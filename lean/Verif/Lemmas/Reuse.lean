import Verif.Lemmas.FD
import Verif.Lemmas.SafeMore
import Verif.Lemmas.IDIM
import Verif.Model.IDIM

/-!
Two runs of an algorithm on objects that differ in their working memory only. The runs are compared step by step, so that nothing has to be
assumed about the state: calls that fail fail alike.
-/

namespace RBDyn
variable {K : Type} [Scalar K]
variable {α β γ δ : Type}

/-- Two results are the same error, or values in relation `R`. -/
def Alike (R : α → β → Prop) : Res α → Res β → Prop
  | .ok a, .ok b => R a b
  | .error e, .error e' => e = e'
  | _, _ => False

namespace Alike

theorem ok {R : α → β → Prop} {a : α} {b : β} (h : R a b) : Alike R (.ok a) (.ok b) := h

theorem pure {R : α → β → Prop} {a : α} {b : β} (h : R a b) : Alike R (Pure.pure a) (Pure.pure b) := h

theorem error {R : α → β → Prop} (e : Err) : Alike R (.error e) (.error e) := rfl

theorem refl {R : α → α → Prop} (h : ∀ a, R a a) (x : Res α) : Alike R x x := by
  cases x with
  | ok a => exact h a
  | error e => rfl

theorem of_eq {R : α → α → Prop} (h : ∀ a, R a a) {x y : Res α} (e : x = y) : Alike R x y := e ▸ refl h x

theorem eq {x y : Res α} (h : Alike (· = ·) x y) : x = y := by
  cases x <;> cases y <;> simp_all [Alike]

theorem imp {R S : α → β → Prop} {x : Res α} {y : Res β} (h : Alike R x y) (hs : ∀ a b, R a b → S a b) : Alike S x y := by
  cases x <;> cases y <;> simp_all [Alike]

theorem of_ok {R : α → β → Prop} {x : Res α} {y : Res β} (h : Alike R x y) {a : α} {b : β} (hx : x = .ok a) (hy : y = .ok b) : R a b := by
  subst hx hy; exact h

theorem map_eq {R : α → β → Prop} {x : Res α} {y : Res β} (h : Alike R x y) {f : α → γ} {g : β → γ} (hf : ∀ a b, R a b → f a = g b) :
    f <$> x = g <$> y := by
  cases x <;> cases y
  · exact congrArg Except.error h
  · exact h.elim
  · exact h.elim
  · exact congrArg Except.ok (hf _ _ h)

theorem bind {R : α → β → Prop} {S : γ → δ → Prop} {x : Res α} {y : Res β} {f : α → Res γ} {g : β → Res δ} (h : Alike R x y)
    (hf : ∀ a b, R a b → Alike S (f a) (g b)) : Alike S (x >>= f) (y >>= g) := by
  cases x <;> cases y <;> simp_all [Alike]

/-- The two runs start with the same computation. -/
theorem same {S : γ → δ → Prop} (x : Res α) {f : α → Res γ} {g : α → Res δ} (hf : ∀ a, x = .ok a → Alike S (f a) (g a)) :
    Alike S (x >>= f) (x >>= g) := by
  cases x with
  | ok a => exact hf a rfl
  | error e => rfl

theorem range {σ τ : Type} {f : σ → Nat → Res σ} {g : τ → Nat → Res τ} (R : Nat → σ → τ → Prop) {n : Nat} {s : σ} {t : τ} (h0 : R 0 s t)
    (h : ∀ i s t, i < n → R i s t → Alike (R (i + 1)) (f s i) (g t i)) :
    Alike (R n) ((List.range n).foldlM f s) ((List.range n).foldlM g t) := by
  induction n with
  | zero => exact h0
  | succ n ih =>
    rw [List.range_succ, List.foldlM_append, List.foldlM_append]
    refine (ih fun i s t hi => h i s t (by omega)).bind fun s t hst => ?_
    simp only [List.foldlM_cons, List.foldlM_nil]
    refine (h n s t (by omega) hst).bind fun s t hst => ok hst

theorem range_reverse {σ τ : Type} {f : σ → Nat → Res σ} {g : τ → Nat → Res τ} (R : Nat → σ → τ → Prop) {n : Nat} {s : σ} {t : τ}
    (h0 : R n s t) (h : ∀ i s t, i < n → R (i + 1) s t → Alike (R i) (f s i) (g t i)) :
    Alike (R 0) ((List.range n).reverse.foldlM f s) ((List.range n).reverse.foldlM g t) := by
  induction n generalizing s t with
  | zero => exact h0
  | succ n ih =>
    rw [List.range_succ, List.reverse_append, List.foldlM_append, List.foldlM_append]
    refine bind (R := R n) ?_ fun s t hst => ih hst fun i s t hi => h i s t (by omega)
    simp only [List.reverse_singleton, List.foldlM_cons, List.foldlM_nil]
    exact (h n s t (by omega) h0).bind fun s t hst => ok hst

theorem list {σ τ ι : Type} {f : σ → ι → Res σ} {g : τ → ι → Res τ} (R : σ → τ → Prop) {l : List ι} {s : σ} {t : τ} (h0 : R s t)
    (h : ∀ i s t, i ∈ l → R s t → Alike R (f s i) (g t i)) : Alike R (l.foldlM f s) (l.foldlM g t) := by
  induction l generalizing s t with
  | nil => exact h0
  | cons a l ih =>
    simp only [List.foldlM_cons]
    exact (h a s t (by simp) h0).bind fun s t hst => ih hst fun i s t hi => h i s t (by simp [hi])

/-- Both runs write the same value to the same place of two lists of the same length. -/
theorem wr {l l' : List α} (hl : l.length = l'.length) (i : Nat) (a : α) :
    Alike (fun m m' => m = l.set i a ∧ m' = l'.set i a ∧ i < l.length) (RBDyn.wr l i a) (RBDyn.wr l' i a) := by
  unfold RBDyn.wr
  by_cases h : i < l.length
  · rw [if_pos h, if_pos (hl ▸ h)]
    exact ⟨rfl, rfl, h⟩
  · rw [if_neg h, if_neg (hl ▸ h)]
    rfl

theorem rd {l l' : List α} {i : Nat} (h : l[i]? = l'[i]?) : RBDyn.rd l i = RBDyn.rd l' i := by
  unfold RBDyn.rd; rw [h]

end Alike

/-- Two lists of length `n` that agree before position `k`. -/
structure AgreeTo (n k : Nat) (l l' : List α) : Prop where
  left : l.length = n
  right : l'.length = n
  agree : ∀ i, i < k → l[i]? = l'[i]?

theorem AgreeTo.zero {n : Nat} {l l' : List α} (h : l.length = n) (h' : l'.length = n) : AgreeTo n 0 l l' := ⟨h, h', fun i hi => by omega⟩

theorem AgreeTo.of_eq {n : Nat} {l : List α} (h : l.length = n) (k : Nat) : AgreeTo n k l l := ⟨h, h, fun _ _ => rfl⟩

theorem AgreeTo.set {n k : Nat} {l l' : List α} (h : AgreeTo n k l l') (a : α) : AgreeTo n (k + 1) (l.set k a) (l'.set k a) := by
  refine ⟨by simp [h.left], by simp [h.right], fun i hi => ?_⟩
  rcases eq_or_ne k i with rfl | hne
  · by_cases hk : k < n
    · rw [List.getElem?_set_self (by rw [h.left]; exact hk), List.getElem?_set_self (by rw [h.right]; exact hk)]
    · rw [List.getElem?_eq_none (by simp [h.left]; omega), List.getElem?_eq_none (by simp [h.right]; omega)]
  · rw [List.getElem?_set_ne hne, List.getElem?_set_ne hne]
    exact h.agree i (by omega)

theorem AgreeTo.eq {n k : Nat} {l l' : List α} (h : AgreeTo n k l l') (hk : n ≤ k) : l = l' := by
  refine List.ext_getElem? fun i => ?_
  by_cases hi : i < k
  · exact h.agree i hi
  · rw [List.getElem?_eq_none (by rw [h.left]; omega), List.getElem?_eq_none (by rw [h.right]; omega)]

/-! ### Inverse dynamics and inverse statics -/

variable {mb : MultiBody K}

theorem idStep_alike {k : Nat} {s t : ID K × MBC K} {n : Nat} (h : s.2 = t.2 ∧ AgreeTo n k s.1.f t.1.f) :
    Alike (fun s t => s.2 = t.2 ∧ AgreeTo n (k + 1) s.1.f t.1.f) (idStep mb s k) (idStep mb t k) := by
  obtain ⟨d, c⟩ := s
  obtain ⟨d', c'⟩ := t
  obtain ⟨rfl : c = c', hf⟩ := h
  unfold idStep
  refine .same _ fun X _ => .same _ fun vj _ => .same _ fun j _ => .same _ fun aD _ => .same _ fun at' _ => .same _ fun vb _ =>
    .same _ fun p _ => ?_
  by_cases hp : p ≠ -1
  · simp only [if_pos hp]
    refine .same _ fun a _ => .same _ fun acc _ => .same _ fun b _ => .same _ fun W _ => .same _ fun fe _ => .same _ fun ff _ => ?_
    refine (Alike.wr (hf.left.trans hf.right.symm) k _).bind ?_
    rintro _ _ ⟨rfl, rfl, -⟩
    exact .pure ⟨rfl, hf.set _⟩
  · simp only [if_neg hp]
    refine .same _ fun a _ => .same _ fun acc _ => .same _ fun b _ => .same _ fun W _ => .same _ fun fe _ => ?_
    refine (Alike.wr (hf.left.trans hf.right.symm) k _).bind ?_
    rintro _ _ ⟨rfl, rfl, -⟩
    exact .pure ⟨rfl, hf.set _⟩

theorem ID.inverseDynamics_alike {d d' : ID K} (h : d.f.length = mb.bodies.length) (h' : d'.f.length = mb.bodies.length) (mbc : MBC K) :
    d.inverseDynamics mb mbc = d'.inverseDynamics mb mbc := by
  refine Alike.eq ?_
  unfold ID.inverseDynamics
  refine Alike.bind (Alike.range (fun k (s t : ID K × MBC K) => s.2 = t.2 ∧ AgreeTo mb.bodies.length k s.1.f t.1.f) ⟨rfl, .zero h h'⟩
    fun i s t _ hst => idStep_alike hst) ?_
  rintro ⟨⟨f⟩, c⟩ ⟨⟨f'⟩, c'⟩ ⟨rfl : c = c', hf⟩
  obtain rfl : f = f' := hf.eq le_rfl
  exact .refl (fun _ => rfl) _

theorem ID.inverseDynamicsNoInertia_alike {d d' : ID K} (h : d.f.length = mb.bodies.length) (h' : d'.f.length = mb.bodies.length)
    (mbc : MBC K) : d.inverseDynamicsNoInertia mb mbc = d'.inverseDynamicsNoInertia mb mbc := by
  refine Alike.eq ?_
  unfold ID.inverseDynamicsNoInertia
  refine Alike.bind (Alike.range (fun k (s t : ID K) => AgreeTo mb.bodies.length k s.f t.f) (.zero h h') fun i s t _ hst => ?_) ?_
  · refine .same _ fun W _ => .same _ fun fe _ => (Alike.wr (hst.left.trans hst.right.symm) i _).bind ?_
    rintro _ _ ⟨rfl, rfl, -⟩
    exact .pure (hst.set _)
  rintro ⟨f⟩ ⟨f'⟩ hf
  obtain rfl : f = f' := hf.eq le_rfl
  exact .refl (fun _ => rfl) _

theorem inverseStatics_alike {d d' : ID K} (h : d.f.length = mb.bodies.length) (h' : d'.f.length = mb.bodies.length) (mbc : MBC K) :
    inverseStatics d mb mbc = inverseStatics d' mb mbc := by
  refine Alike.eq ?_
  unfold inverseStatics
  refine Alike.bind (Alike.range (fun k (s t : ID K × MBC K) => s.2 = t.2 ∧ AgreeTo mb.bodies.length k s.1.f t.1.f) ⟨rfl, .zero h h'⟩
    fun i s t _ hst => ?_) ?_
  · obtain ⟨d, c⟩ := s
    obtain ⟨d', c'⟩ := t
    obtain ⟨rfl : c = c', hf⟩ := hst
    unfold isStep
    refine .same _ fun W _ => .same _ fun a _ => .same _ fun b _ => .same _ fun fe _ =>
      (Alike.wr (hf.left.trans hf.right.symm) i _).bind ?_
    rintro _ _ ⟨rfl, rfl, -⟩
    exact .pure ⟨rfl, hf.set _⟩
  rintro ⟨⟨f⟩, c⟩ ⟨⟨f'⟩, c'⟩ ⟨rfl : c = c', hf⟩
  obtain rfl : f = f' := hf.eq le_rfl
  exact .refl (fun _ => rfl) _

/-! A successful call leaves working memory of the same size. -/

/-- The value, if there is one, satisfies `P`. -/
def Keeps (P : α → Prop) (x : Res α) : Prop := ∀ a, x = .ok a → P a

theorem Keeps.bind {P : α → Prop} {Q : β → Prop} {x : Res α} {f : α → Res β} (h : Keeps P x) (hf : ∀ a, P a → Keeps Q (f a)) :
    Keeps Q (x >>= f) := by
  intro b hb
  obtain ⟨a, ha, hb⟩ := Res.bind_eq_ok.1 hb
  exact hf a (h a ha) b hb

theorem Keeps.skip {Q : β → Prop} {x : Res α} {f : α → Res β} (hf : ∀ a, Keeps Q (f a)) : Keeps Q (x >>= f) :=
  Keeps.bind (P := fun _ => True) (fun _ _ => trivial) fun a _ => hf a

theorem Keeps.pure {P : α → Prop} {a : α} (h : P a) : Keeps P (Pure.pure a) := fun _ e => by cases e; exact h

theorem Keeps.list {σ ι : Type} {f : σ → ι → Res σ} (P : σ → Prop) {l : List ι} {s : σ} (h0 : P s)
    (h : ∀ i s, P s → Keeps P (f s i)) : Keeps P (l.foldlM f s) := by
  induction l generalizing s with
  | nil => exact .pure h0
  | cons a l ih =>
    rw [List.foldlM_cons]
    exact (h a s h0).bind fun s hs => ih hs

theorem Keeps.wr {l : List α} {i : Nat} {a : α} : Keeps (fun m => m.length = l.length) (RBDyn.wr l i a) := by
  intro m h
  unfold RBDyn.wr at h
  split at h
  · cases h; simp
  · cases h

theorem Keeps.wrI {l : List α} {i : Int} {a : α} : Keeps (fun m => m.length = l.length) (RBDyn.wrI l i a) := by
  intro m h
  unfold RBDyn.wrI at h
  split at h
  · cases h
  · exact Keeps.wr m h

theorem ID.computeJointTorques_keeps {d : ID K} {n : Nat} (h : d.f.length = n) (mbc : MBC K) :
    Keeps (fun r : ID K × MBC K => r.1.f.length = n) (d.computeJointTorques mb mbc) := by
  refine .list _ h ?_
  rintro i ⟨d, c⟩ hd
  unfold torqueStep
  refine .skip fun j => .skip fun fi => .skip fun S => .skip fun t => .skip fun t => .skip fun T => .skip fun p => ?_
  by_cases hp : p ≠ -1
  · simp only [if_pos hp]
    exact .skip fun X => .skip fun fp => Keeps.wrI.bind fun m hm => .pure (hm.trans hd)
  · simp only [if_neg hp]
    exact .pure hd

theorem idStep_keeps {n : Nat} {s : ID K × MBC K} (h : s.1.f.length = n) (i : Nat) :
    Keeps (fun r : ID K × MBC K => r.1.f.length = n) (idStep mb s i) := by
  obtain ⟨d, c⟩ := s
  unfold idStep
  refine .skip fun X => .skip fun vj => .skip fun j => .skip fun aD => .skip fun at' => .skip fun vb => .skip fun p => ?_
  by_cases hp : p ≠ -1
  · simp only [if_pos hp]
    exact .skip fun a => .skip fun a => .skip fun a => .skip fun a => .skip fun a => .skip fun a => Keeps.wr.bind fun m hm => .pure (hm.trans h)
  · simp only [if_neg hp]
    exact .skip fun a => .skip fun a => .skip fun a => .skip fun a => .skip fun a => Keeps.wr.bind fun m hm => .pure (hm.trans h)

theorem ID.inverseDynamics_keeps {d : ID K} {n : Nat} (h : d.f.length = n) (mbc : MBC K) :
    Keeps (fun r : ID K × MBC K => r.1.f.length = n) (d.inverseDynamics mb mbc) :=
  (Keeps.list (fun r : ID K × MBC K => r.1.f.length = n) h fun i s hs => idStep_keeps hs i).bind fun s hs =>
    s.1.computeJointTorques_keeps hs s.2

theorem ID.inverseDynamicsNoInertia_keeps {d : ID K} {n : Nat} (h : d.f.length = n) (mbc : MBC K) :
    Keeps (fun r : ID K × MBC K => r.1.f.length = n) (d.inverseDynamicsNoInertia mb mbc) :=
  (Keeps.list (fun r : ID K => r.f.length = n) h fun i s hs =>
    .skip fun W => .skip fun fe => Keeps.wr.bind fun m hm => .pure (hm.trans hs)).bind fun s hs => s.computeJointTorques_keeps hs mbc

theorem inverseStatics_keeps {d : ID K} {n : Nat} (h : d.f.length = n) (mbc : MBC K) :
    Keeps (fun r : ID K × MBC K => r.1.f.length = n) (inverseStatics d mb mbc) := by
  unfold inverseStatics
  refine (Keeps.list (fun r : ID K × MBC K => r.1.f.length = n) h ?_).bind ?_
  · rintro i ⟨d, c⟩ hs
    unfold isStep
    exact .skip fun W => .skip fun fe => .skip fun W => .skip fun fe => Keeps.wr.bind fun m hm => .pure (hm.trans hs)
  · rintro ⟨d, c⟩ hs
    refine .list (fun r : ID K × MBC K => r.1.f.length = n) hs ?_
    rintro i ⟨d, c⟩ hd
    unfold isBackStep
    refine .skip fun j => .skip fun fi => .skip fun S => .skip fun t => .skip fun t => .skip fun T => .skip fun p => ?_
    by_cases hp : p ≠ -1
    · simp only [if_pos hp]
      exact .skip fun X => .skip fun fp => Keeps.wrI.bind fun m hm => .pure (hm.trans hd)
    · simp only [if_neg hp]
      exact .pure hd

/-! ### Forward dynamics -/

/-- A matrix with all its columns overwritten. -/
theorem setCols_alike {n : Nat} {A B : List α} (hA : A.length = n) (hB : B.length = n) (g : Nat → Res α) : setCols n A g = setCols n B g := by
  unfold setCols
  refine Alike.eq (Alike.imp (Alike.range (fun k (s t : List α) => AgreeTo n k s t) (.zero hA hB) fun i s t _ hst => ?_)
    fun a b h => h.eq le_rfl)
  refine .same _ fun x _ => (Alike.wr (hst.left.trans hst.right.symm) i x).imp ?_
  rintro _ _ ⟨rfl, rfl, -⟩
  exact hst.set _

theorem setCols_keeps {n : Nat} {A : List α} (g : Nat → Res α) : Keeps (fun B => B.length = A.length) (setCols n A g) :=
  .list _ rfl fun i s hs => .skip fun x => fun m hm => (Keeps.wr m hm).trans hs

theorem setBlock_keeps {m b : DMat K} {r c p q : Nat} : Keeps (fun m' : DMat K => m'.rows = m.rows ∧ m'.cols = m.cols) (m.setBlock r c p q b) := by
  intro m' h
  unfold DMat.setBlock at h
  split at h
  · cases h; exact ⟨rfl, rfl⟩
  · cases h

/-- Two objects that agree in `H`, in `Ist` and in the matrices of the joints from `k` on. -/
structure FD.HSame (mb : MultiBody K) (k : Nat) (d d' : FD K) : Prop where
  left : d.Fits mb
  right : d'.Fits mb
  H : d.H = d'.H
  Ist : d.Ist = d'.Ist
  F : ∀ i, k ≤ i → d.F[i]? = d'.F[i]?

theorem FD.Fits.setF (wf : mb.WF) {d : FD K} (h : d.Fits mb) {i : Nat} (hi : i < mb.bodies.length) {x : List (ForceVec K)}
    (hx : x.length = mb.dofAt i) : FD.Fits mb { d with F := d.F.set i x } :=
  { h with F := Rows.set wf h.F hi hx }

theorem getElem?_set_same {l l' : List α} (hl : l.length = l'.length) {k : Nat} (h : ∀ i, k + 1 ≤ i → l[i]? = l'[i]?) (a : α) :
    ∀ i, k ≤ i → (l.set k a)[i]? = (l'.set k a)[i]? := by
  intro i hi
  rcases eq_or_ne k i with rfl | hne
  · by_cases hk : k < l.length
    · rw [List.getElem?_set_self hk, List.getElem?_set_self (hl ▸ hk)]
    · rw [List.getElem?_eq_none (by simp; omega), List.getElem?_eq_none (by simp; omega)]
  · rw [List.getElem?_set_ne hne, List.getElem?_set_ne hne]
    exact h i (by omega)

theorem hUp_alike (wf : mb.WF) (mbc : MBC K) {i : Nat} (hi : i < mb.bodies.length) : ∀ (fuel j : Nat) (d d' : FD K), FD.HSame mb i d d' →
    Alike (FD.HSame mb i) (hUp mb mbc i fuel j d) (hUp mb mbc i fuel j d') := by
  intro fuel
  induction fuel with
  | zero => exact fun _ _ _ _ => rfl
  | succ fuel ih =>
    intro j d d' h
    unfold hUp
    refine .same _ fun p _ => ?_
    by_cases hp : p ≠ -1
    · simp only [if_pos hp]
      refine .same _ fun X _ => .same _ fun ji _ => ?_
      rw [Alike.rd (h.F i le_rfl)]
      refine .same _ fun Fi hFi => .same _ fun Fi' hFi' => ?_
      have hl : Fi'.length = mb.dofAt i :=
        (setCols_keeps _ _ hFi').trans (Rows.size wf h.right.F (rd_eq_ok_iff.1 hFi) hi)
      have hlen : d.F.length = d'.F.length := by rw [Rows.length wf h.left.F, Rows.length wf h.right.F]
      refine (Alike.wr hlen i Fi').bind ?_
      rintro _ _ ⟨rfl, rfl, -⟩
      have h1 : FD.HSame mb i { d with F := d.F.set i Fi' } { d' with F := d'.F.set i Fi' } :=
        ⟨h.left.setF wf hi hl, h.right.setF wf hi hl, h.H, h.Ist, getElem?_set_same hlen (fun k hk => h.F k (by omega)) _⟩
      refine .same _ fun j' _ => .same _ fun jj _ => ?_
      by_cases hj : jj.dof ≠ 0
      · simp only [if_pos hj]
        rw [h.left.dofPos, h.right.dofPos, h.H]
        refine .same _ fun pi _ => .same _ fun pj _ => .same _ fun S _ => .same _ fun H1 e1 => .same _ fun B _ => .same _ fun H2 e2 => ?_
        have a1 := setBlock_keeps _ e1
        have a2 := setBlock_keeps _ e2
        refine ih j' _ _ ⟨?_, ?_, rfl, h1.Ist, h1.F⟩
        · exact { h1.left with Hrows := a2.1.trans (a1.1.trans h.right.Hrows), Hcols := a2.2.trans (a1.2.trans h.right.Hcols), dofPos := rfl }
        · exact { h1.right with Hrows := a2.1.trans (a1.1.trans h.right.Hrows), Hcols := a2.2.trans (a1.2.trans h.right.Hcols), dofPos := rfl }
      · simp only [if_neg hj]
        exact ih j' _ _ h1
    · simp only [if_neg hp]
      exact .pure h

theorem hStep_alike (wf : mb.WF) (mbc : MBC K) {i : Nat} (hi : i < mb.bodies.length) {d d' : FD K} (h : FD.HSame mb (i + 1) d d') :
    Alike (FD.HSame mb i) (hStep mb mbc d i) (hStep mb mbc d' i) := by
  have tail : ∀ Ist : List (RBInertia K), Ist.length = d.Ist.length → ∀ (dd dd' : FD K), dd = { d with Ist := Ist } →
      dd' = { d' with Ist := Ist } → Alike (FD.HSame mb i)
      (do
        let j ← rd mb.joints i
        let Ii ← rd dd.Ist i
        let S ← rd mbc.motionSubspace i
        let Fi ← setCols j.dof (← rd dd.F i) fun c => do return Ii.mulMotion (← rd S c)
        let F ← wr dd.F i Fi
        let p ← rd dd.dofPos i
        let H ← dd.H.setBlock p p j.dof j.dof (gram S Fi)
        hUp mb mbc i (mb.bodies.length + 1) i { dd with F, H })
      (do
        let j ← rd mb.joints i
        let Ii ← rd dd'.Ist i
        let S ← rd mbc.motionSubspace i
        let Fi ← setCols j.dof (← rd dd'.F i) fun c => do return Ii.mulMotion (← rd S c)
        let F ← wr dd'.F i Fi
        let p ← rd dd'.dofPos i
        let H ← dd'.H.setBlock p p j.dof j.dof (gram S Fi)
        hUp mb mbc i (mb.bodies.length + 1) i { dd' with F, H }) := by
    rintro Ist hIst _ _ rfl rfl
    refine .same _ fun j hj => .same _ fun Ii _ => .same _ fun S _ => ?_
    have hjd : j.dof = mb.dofAt i := by
      obtain ⟨j', hj', e⟩ := safe_joint wf hi
      rw [hj] at hj'; cases hj'; exact e
    have hlen : d.F.length = d'.F.length := by rw [Rows.length wf h.left.F, Rows.length wf h.right.F]
    obtain ⟨x, ex, hx⟩ := Rows.rd wf h.left.F hi
    obtain ⟨x', ex', hx'⟩ := Rows.rd wf h.right.F hi
    dsimp only
    rw [ex, ex', Res.bind_ok, Res.bind_ok, setCols_alike (hx.trans hjd.symm) (hx'.trans hjd.symm)]
    refine .same _ fun Fi hFi => (Alike.wr hlen i Fi).bind ?_
    have hl : Fi.length = mb.dofAt i := (setCols_keeps _ _ hFi).trans hx'
    rintro _ _ ⟨rfl, rfl, -⟩
    rw [h.left.dofPos, h.right.dofPos, h.H]
    refine .same _ fun p _ => .same _ fun H1 e1 => ?_
    have a1 := setBlock_keeps _ e1
    have b1 := h.left.setF wf hi hl
    have b2 := h.right.setF wf hi hl
    refine hUp_alike wf mbc hi _ _ _ _ ⟨?_, ?_, rfl, rfl, getElem?_set_same hlen h.F _⟩
    · exact { b1 with
        Hrows := a1.1.trans h.right.Hrows
        Hcols := a1.2.trans h.right.Hcols
        Ist := hIst.trans h.left.Ist
        dofPos := h.left.dofPos ▸ h.left.dofPos }
    · exact { b2 with
        Hrows := a1.1.trans h.right.Hrows
        Hcols := a1.2.trans h.right.Hcols
        Ist := hIst.trans h.left.Ist
        dofPos := h.right.dofPos ▸ h.right.dofPos }
  unfold hStep
  refine .same _ fun p _ => ?_
  rw [← h.Ist]
  refine .same _ fun Ii _ => ?_
  by_cases hp : p ≠ -1
  · simp only [if_pos hp]
    refine .same _ fun X _ => .same _ fun Ip _ => .same _ fun Ist hIst => ?_
    exact tail Ist (Keeps.wrI _ hIst) _ _ rfl rfl
  · simp only [if_neg hp]
    exact tail d.Ist rfl _ _ rfl rfl

theorem FD.computeH_alike (wf : mb.WF) (mbc : MBC K) {d d' : FD K} (h : d.Fits mb) (h' : d'.Fits mb) :
    Alike (FD.HSame mb 0) (d.computeH mb mbc) (d'.computeH mb mbc) := by
  unfold FD.computeH
  have hz : d.H.setZero = d'.H.setZero := by
    simp [DMat.setZero, h.Hrows, h.Hcols, h'.Hrows, h'.Hcols]
  refine Alike.bind (Alike.range (fun k (s t : FD K) => s.Fits mb ∧ t.Fits mb ∧ s.H = t.H ∧ AgreeTo mb.bodies.length k s.Ist t.Ist)
    ⟨{ h with Hrows := h.Hrows, Hcols := h.Hcols }, { h' with Hrows := h'.Hrows, Hcols := h'.Hcols }, hz, .zero h.Ist h'.Ist⟩ ?_) ?_
  · rintro i s t hi ⟨hs, ht, e, ha⟩
    refine .same _ fun b _ => (Alike.wr (ha.left.trans ha.right.symm) i _).bind ?_
    rintro _ _ ⟨rfl, rfl, -⟩
    exact .pure ⟨{ hs with Ist := by simp [hs.Ist] }, { ht with Ist := by simp [ht.Ist] }, e, ha.set _⟩
  · rintro s t ⟨hs, ht, e, ha⟩
    refine Alike.range_reverse (FD.HSame mb) ⟨hs, ht, e, ha.eq le_rfl, fun i hi => ?_⟩ fun i s t hi hst => hStep_alike wf mbc hi hst
    rw [List.getElem?_eq_none (by rw [Rows.length wf hs.F]; exact hi), List.getElem?_eq_none (by rw [Rows.length wf ht.F]; exact hi)]

/-- Two objects that agree in `f`, and in `C` from the position of joint `k` on; if `P` holds, also in `H`. -/
structure FD.CSame (mb : MultiBody K) (P : Prop) (k : Nat) (d d' : FD K) : Prop where
  left : d.Fits mb
  right : d'.Fits mb
  H : P → d.H = d'.H
  f : d.f = d'.f
  C : ∀ i, mb.dofPosAt k ≤ i → d.C[i]? = d'.C[i]?

/-- Two lists that agree from `b` on agree from `a` on, once the same values are written to `a`, …, `b - 1`. -/
theorem setSegment_alike {v v' w : List K} {p n : Nat} (hl : v.length = v'.length) (h : ∀ i, p + n ≤ i → v[i]? = v'[i]?) :
    Alike (fun m m' => m.length = v.length ∧ m'.length = v.length ∧ ∀ i, p ≤ i → m[i]? = m'[i]?) (setSegment v p n w) (setSegment v' p n w) := by
  unfold setSegment
  by_cases hc : p + n ≤ v.length ∧ w.length = n
  · rw [if_pos hc, if_pos (hl ▸ hc)]
    have e : v.drop (p + n) = v'.drop (p + n) := by
      refine List.ext_getElem? fun i => ?_
      rw [List.getElem?_drop, List.getElem?_drop]
      exact h _ (by omega)
    refine ⟨?_, ?_, fun i hi => ?_⟩
    · simp; omega
    · simp; omega
    · have a1 : (v.take p).length = p := by rw [List.length_take]; omega
      have a2 : (v'.take p).length = p := by rw [List.length_take]; omega
      rw [List.append_assoc, List.append_assoc, e, List.getElem?_append_right (l₁ := v.take p) (by omega),
        List.getElem?_append_right (l₁ := v'.take p) (by omega), a1, a2]
  · rw [if_neg hc, if_neg (hl ▸ hc)]
    rfl

theorem cStep_alike {P : Prop} (mbc : MBC K) {k : Nat} {d d' : FD K}
    (h : d.Fits mb ∧ d'.Fits mb ∧ (P → d.H = d'.H) ∧ AgreeTo mb.bodies.length k d.acc d'.acc ∧ AgreeTo mb.bodies.length k d.f d'.f)
    (hp : ∀ p, rd mb.pred k = .ok p → p < k) :
    Alike (fun d d' : FD K => d.Fits mb ∧ d'.Fits mb ∧ (P → d.H = d'.H) ∧ AgreeTo mb.bodies.length (k + 1) d.acc d'.acc ∧
      AgreeTo mb.bodies.length (k + 1) d.f d'.f) (cStep mb mbc d k) (cStep mb mbc d' k) := by
  obtain ⟨hd, hd', hH, ha, hf⟩ := h
  have tail : ∀ (vb a : MotionVec K), Alike (fun d d' : FD K => d.Fits mb ∧ d'.Fits mb ∧ (P → d.H = d'.H) ∧
      AgreeTo mb.bodies.length (k + 1) d.acc d'.acc ∧ AgreeTo mb.bodies.length (k + 1) d.f d'.f)
      (do
        let acc ← wr d.acc k a
        let b ← rd mb.bodies k
        let W ← rd mbc.bodyPosW k
        let fe ← rd mbc.force k
        let f ← wr d.f k (b.inertia.mulMotion a + vb.crossDual (b.inertia.mulMotion vb) - W.dualMul fe)
        return { d with acc, f })
      (do
        let acc ← wr d'.acc k a
        let b ← rd mb.bodies k
        let W ← rd mbc.bodyPosW k
        let fe ← rd mbc.force k
        let f ← wr d'.f k (b.inertia.mulMotion a + vb.crossDual (b.inertia.mulMotion vb) - W.dualMul fe)
        return { d' with acc, f }) := by
    intro vb a
    refine (Alike.wr (ha.left.trans ha.right.symm) k _).bind ?_
    rintro _ _ ⟨rfl, rfl, -⟩
    refine .same _ fun b _ => .same _ fun W _ => .same _ fun fe _ => (Alike.wr (hf.left.trans hf.right.symm) k _).bind ?_
    rintro _ _ ⟨rfl, rfl, -⟩
    refine .pure ⟨?_, ?_, hH, ha.set _, hf.set _⟩
    · exact { hd with acc := by simp [hd.acc], f := by simp [hd.f] }
    · exact { hd' with acc := by simp [hd'.acc], f := by simp [hd'.f] }
  unfold cStep
  refine .same _ fun X _ => .same _ fun vj _ => .same _ fun vb _ => .same _ fun p e => ?_
  by_cases h1 : p ≠ -1
  · simp only [if_pos h1]
    have er : rdI d.acc p = rdI d'.acc p := by
      unfold rdI
      split
      · rfl
      · exact Alike.rd (ha.agree _ (by have := hp p e; omega))
    rw [er]
    exact .same _ fun a _ => tail vb _
  · simp only [if_neg h1]
    exact tail vb _

theorem cBackStep_alike (wf : mb.WF) {P : Prop} (mbc : MBC K) {i : Nat} (hi : i < mb.bodies.length) {d d' : FD K}
    (h : FD.CSame mb P (i + 1) d d') : Alike (FD.CSame mb P i) (cBackStep mb mbc d i) (cBackStep mb mbc d' i) := by
  unfold cBackStep
  refine .same _ fun j hj => .same _ fun S _ => ?_
  have hjd : j.dof = mb.dofAt i := by
    obtain ⟨j', hj', e⟩ := safe_joint wf hi
    rw [hj] at hj'; cases hj'; exact e
  rw [h.f]
  refine .same _ fun fi _ => ?_
  rw [wf.rd_dofPos h.left hi, wf.rd_dofPos h.right hi, Res.bind_ok, Res.bind_ok]
  have e : mb.dofPosAt (i + 1) = mb.dofPosAt i + j.dof := by rw [hjd, MultiBody.dofPosAt_succ (by rw [wf.njoints]; exact hi)]
  have hC := h.C
  rw [e] at hC
  refine (setSegment_alike (h.left.C.trans h.right.C.symm) hC).bind ?_
  rintro C C' ⟨l1, l2, hC⟩
  refine .same _ fun p _ => ?_
  by_cases hp : p ≠ -1
  · simp only [if_pos hp]
    refine .same _ fun X _ => .same _ fun fp _ => .same _ fun f hf => ?_
    have hl : f.length = mb.bodies.length := (Keeps.wrI _ hf).trans h.right.f
    exact .pure ⟨{ h.left with C := l1.trans h.left.C, f := hl }, { h.right with C := l2.trans h.left.C, f := hl }, h.H, rfl, hC⟩
  · simp only [if_neg hp]
    exact .pure ⟨{ h.left with C := l1.trans h.left.C, f := h.right.f }, { h.right with C := l2.trans h.left.C }, h.H, rfl, hC⟩

theorem FD.computeC_alike (wf : mb.WF) {P : Prop} (mbc : MBC K) {d d' : FD K} (h : d.Fits mb) (h' : d'.Fits mb) (hH : P → d.H = d'.H) :
    Alike (FD.CSame mb P 0) (d.computeC mb mbc) (d'.computeC mb mbc) := by
  unfold FD.computeC
  refine Alike.bind (Alike.range (fun k (s t : FD K) => s.Fits mb ∧ t.Fits mb ∧ (P → s.H = t.H) ∧ AgreeTo mb.bodies.length k s.acc t.acc ∧
    AgreeTo mb.bodies.length k s.f t.f) ⟨h, h', hH, .zero h.acc h'.acc, .zero h.f h'.f⟩ fun i s t hi hst => cStep_alike mbc hst ?_) ?_
  · intro p hp
    obtain ⟨p', e, hlt⟩ := safe_pred wf hi
    rw [hp] at e; cases e
    rcases hlt with h | ⟨k, h, hk⟩ <;> omega
  · rintro s t ⟨hs, ht, e, -, hf⟩
    refine Alike.range_reverse (FD.CSame mb P) ⟨hs, ht, e, hf.eq le_rfl, fun i hi => ?_⟩ fun i s t hi hst => cBackStep_alike wf mbc hi hst
    rw [wf.dofPosAt_total] at hi
    rw [List.getElem?_eq_none (by rw [hs.C]; exact hi), List.getElem?_eq_none (by rw [ht.C]; exact hi)]

theorem FD.forwardDynamics_alike (wf : mb.WF) {solve : DMat K → List K → List K} (hsolve : ∀ m v, (solve m v).length = m.cols) (mbc : MBC K)
    {d d' : FD K} (h : d.Fits mb) (h' : d'.Fits mb) (ht : mbc.jointTorque.flatten.length = mb.nrDof) :
    Alike (fun r r' : FD K × MBC K => r.1.Fits mb ∧ r'.1.Fits mb ∧ r.1.H = r'.1.H ∧ r.1.C = r'.1.C ∧ r.2 = r'.2)
      (d.forwardDynamics solve mb mbc) (d'.forwardDynamics solve mb mbc) := by
  unfold FD.forwardDynamics
  refine (FD.computeH_alike wf mbc h h').bind fun d d' h => ?_
  refine (FD.computeC_alike (P := True) wf mbc h.left h.right fun _ => h.H).bind fun d d' h => ?_
  have hC : d.C = d'.C := List.ext_getElem? fun i => h.C i (by simp [MultiBody.dofPosAt])
  have e : paramToVectorInto mbc.jointTorque d.tmpFd = paramToVectorInto mbc.jointTorque d'.tmpFd := by
    rw [paramToVectorInto_eq _ _ (by rw [ht, h.left.tmpFd]), paramToVectorInto_eq _ _ (by rw [ht, h.right.tmpFd]),
      List.drop_eq_nil_of_le (by rw [ht, h.left.tmpFd]), List.drop_eq_nil_of_le (by rw [ht, h.right.tmpFd])]
  rw [e, hC, h.H trivial]
  refine .same _ fun t _ => .same _ fun rhs _ => .same _ fun aD _ => .pure ⟨?_, ?_, rfl, rfl, rfl⟩
  · exact { h.left with
      Hrows := h.right.Hrows
      Hcols := h.right.Hcols
      C := h.right.C
      tmpFd := by rw [hsolve, h.right.Hcols] }
  · exact { h.right with tmpFd := by rw [hsolve, h.right.Hcols] }

/-! ### Jacobians -/

/-- Two lists of length `N` whose entries before `k` agree as far as `π` shows them. -/
structure AgreeOn (π : α → β) (N k : Nat) (l l' : List α) : Prop where
  left : l.length = N
  right : l'.length = N
  agree : ∀ i, i < k → (l[i]?).map π = (l'[i]?).map π

theorem AgreeOn.set {π : α → β} {N k : Nat} {l l' : List α} (h : AgreeOn π N k l l') {a b : α} (e : π a = π b) :
    AgreeOn π N (k + 1) (l.set k a) (l'.set k b) := by
  refine ⟨by simp [h.left], by simp [h.right], fun i hi => ?_⟩
  rcases eq_or_ne k i with rfl | hne
  · by_cases hk : k < N
    · rw [List.getElem?_set_self (by rw [h.left]; exact hk), List.getElem?_set_self (by rw [h.right]; exact hk)]
      exact congrArg some e
    · rw [List.getElem?_eq_none (by simp [h.left]; omega), List.getElem?_eq_none (by simp [h.right]; omega)]
  · rw [List.getElem?_set_ne hne, List.getElem?_set_ne hne]
    exact h.agree i (by omega)

theorem AgreeOn.map_eq {π : α → β} {N k : Nat} {l l' : List α} (h : AgreeOn π N k l l') (hk : N ≤ k) : l.map π = l'.map π := by
  refine List.ext_getElem? fun i => ?_
  rw [List.getElem?_map, List.getElem?_map]
  by_cases hi : i < k
  · exact h.agree i hi
  · rw [List.getElem?_eq_none (by rw [h.left]; omega), List.getElem?_eq_none (by rw [h.right]; omega)]

theorem writeCols_alike {π : α → β} {N cur : Nat} {l l' : List α} (h : AgreeOn π N cur l l') (n : Nat) {g : Nat → α → Res α}
    (hg : ∀ a x y, Alike (fun u v => π u = π v) (g a x) (g a y)) :
    Alike (AgreeOn π N (cur + n)) (writeCols l cur n g) (writeCols l' cur n g) := by
  unfold writeCols
  refine Alike.range (fun k => AgreeOn π N (cur + k)) h fun i s t _ hst => ?_
  by_cases hc : cur + i < N
  · rw [rd_ok (by rw [hst.left]; exact hc), rd_ok (by rw [hst.right]; exact hc), Res.bind_ok, Res.bind_ok]
    refine (hg i _ _).bind fun u v huv => ?_
    rw [wr_ok (by rw [hst.left]; exact hc), wr_ok (by rw [hst.right]; exact hc)]
    exact .ok (hst.set huv)
  · have e : ∀ m : List α, m.length = N → rd m (cur + i) = .error .ub := fun m hm => rd_eq_error_iff.2 ⟨rfl, by omega⟩
    rw [e _ hst.left, e _ hst.right]
    rfl

theorem dofAt_of_rd {i : Nat} {j : Joint K} (h : rd mb.joints i = .ok j) : mb.dofAt i = j.dof := by
  simp [MultiBody.dofAt, rd_eq_ok_iff.1 h]

/-- All columns of the path are written: what `π` shows of them does not depend on what was there. -/
theorem fillCols_alike {π : α → β} {path : List Nat} {prep : Nat → Nat → Res (Nat → α → Res α)} {l l' : List α}
    (hl : l.length = (path.map mb.dofAt).sum) (hl' : l'.length = (path.map mb.dofAt).sum)
    (hg : ∀ index i g, prep index i = .ok g → ∀ a x y, Alike (fun u v => π u = π v) (g a x) (g a y)) :
    Alike (fun s t : List α × Nat => s.1.length = l.length ∧ t.1.length = l.length ∧ s.1.map π = t.1.map π)
      (fillCols mb path prep l) (fillCols mb path prep l') := by
  unfold fillCols
  refine Alike.imp (Alike.range (fun k (s t : List α × Nat) => s.2 = t.2 ∧ s.2 = ((path.take k).map mb.dofAt).sum ∧
    AgreeOn π (path.map mb.dofAt).sum s.2 s.1 t.1) ⟨rfl, by simp, hl, hl', fun i hi => by simp at hi⟩ ?_) ?_
  · rintro k ⟨s, c⟩ ⟨t, c'⟩ hk ⟨rfl : c = c', hc, ha⟩
    refine .same _ fun i ei => .same _ fun g eg => .same _ fun j ej => ?_
    refine (writeCols_alike ha j.dof (hg _ _ g eg)).bind fun u v huv => .pure ⟨rfl, ?_, huv⟩
    have e : path.take (k + 1) = path.take k ++ [i] := by
      rw [List.take_add_one, rd_eq_ok_iff.1 ei]; rfl
    dsimp only at hc ⊢
    rw [hc, e, List.map_append, List.sum_append, List.map_singleton, List.sum_singleton, dofAt_of_rd ej]
  · rintro ⟨s, c⟩ ⟨t, c'⟩ ⟨rfl : c = c', hc, ha⟩
    rw [List.take_length] at hc
    exact ⟨ha.left.trans hl.symm, ha.right.trans hl.symm, ha.map_eq hc.ge⟩

/-- Two `Jacobian` objects of the right size with the same path, signs and point: they differ in their working memory only. -/
structure Jac.Same (mb : MultiBody K) (J J' : Jac K) : Prop where
  path : J.path = J'.path
  sign : J.sign = J'.sign
  point : J.point = J'.point
  body : J.bodyIndex = J'.bodyIndex
  ref : J.refBodyIndex = J'.refBodyIndex
  inside : ∀ i ∈ J.path, i < mb.joints.length
  jac : J.jac.length = (J.path.map mb.dofAt).sum
  jac' : J'.jac.length = (J.path.map mb.dofAt).sum
  jacDot : J.jacDot.length = (J.path.map mb.dofAt).sum
  jacDot' : J'.jacDot.length = (J.path.map mb.dofAt).sum

namespace Jac.Same
variable {J J' : Jac K}

theorem symm (h : J.Same mb J') : J'.Same mb J :=
  ⟨h.path.symm, h.sign.symm, h.point.symm, h.body.symm, h.ref.symm, h.path ▸ h.inside, h.path ▸ h.jac', h.path ▸ h.jac, h.path ▸ h.jacDot', h.path ▸ h.jacDot⟩

theorem trans {J'' : Jac K} (h : J.Same mb J') (h' : J'.Same mb J'') : J.Same mb J'' :=
  ⟨h.path.trans h'.path, h.sign.trans h'.sign, h.point.trans h'.point, h.body.trans h'.body, h.ref.trans h'.ref, h.inside, h.jac, h.path ▸ h'.jac',
    h.jacDot, h.path ▸ h'.jacDot'⟩

theorem back (h : J.Same mb J') : J.back = J'.back := by unfold Jac.back; rw [h.path]

theorem withJac (h : J.Same mb J') {c c' : List (MotionVec K)} (hc : c.length = J.jac.length) (hc' : c'.length = J.jac.length) :
    Jac.Same mb { J with jac := c } { J' with jac := c' } :=
  ⟨h.path, h.sign, h.point, h.body, h.ref, h.inside, hc.trans h.jac, hc'.trans h.jac, h.jacDot, h.jacDot'⟩

theorem withJacDot (h : J.Same mb J') {c c' : List (MotionVec K)} (hc : c.length = J.jacDot.length) (hc' : c'.length = J.jacDot.length) :
    Jac.Same mb { J with jacDot := c } { J' with jacDot := c' } :=
  ⟨h.path, h.sign, h.point, h.body, h.ref, h.inside, h.jac, h.jac', hc.trans h.jacDot, hc'.trans h.jacDot⟩

theorem fill (h : J.Same mb J') (mbc : MBC K) (X : PTransform K) :
    Alike (fun c c' => c = c' ∧ c.length = J.jac.length) (jacobianFill mb mbc X J.path J.sign J.jac)
      (jacobianFill mb mbc X J'.path J'.sign J'.jac) := by
  unfold jacobianFill
  rw [← h.path, ← h.sign]
  refine Alike.bind (fillCols_alike (π := id) h.jac h.jac' ?_) ?_
  · intro index i g hg a x y
    obtain ⟨W, -, hg⟩ := Res.bind_eq_ok.1 hg
    cases hg
    exact .refl (fun _ => rfl) _
  · rintro ⟨s, c⟩ ⟨t, c'⟩ ⟨h1, h2, h3⟩
    simp only [List.map_id] at h3
    exact .pure ⟨h3, h1⟩

theorem toRef (h : J.Same mb J') (mbc : MBC K) (c : List (MotionVec K)) :
    Alike (fun r r' => r = r' ∧ r.length = c.length) (J.toRef mbc c) (J'.toRef mbc c) := by
  unfold Jac.toRef
  rw [h.ref]
  split
  · exact .same _ fun W _ => .pure ⟨rfl, by simp [rotCols]⟩
  · exact .pure ⟨rfl, rfl⟩

theorem jacobianX (h : J.Same mb J') (mbc : MBC K) (X : PTransform K) :
    Alike (fun r r' => r.jac = r'.jac ∧ r.Same mb r') (J.jacobianX mb mbc X) (J'.jacobianX mb mbc X) := by
  unfold Jac.jacobianX
  refine (h.fill mbc X).bind ?_
  rintro c _ ⟨rfl, hc⟩
  refine (h.toRef mbc c).bind ?_
  rintro r _ ⟨rfl, hr⟩
  exact .pure ⟨rfl, h.withJac (hr.trans hc) (hr.trans hc)⟩

theorem jacobian (h : J.Same mb J') (mbc : MBC K) :
    Alike (fun r r' => r.jac = r'.jac ∧ r.Same mb r') (J.jacobian mb mbc) (J'.jacobian mb mbc) := by
  unfold Jac.jacobian
  rw [h.back, h.point]
  refine .same _ fun N _ => .same _ fun W _ => (h.fill mbc _).bind ?_
  rintro c _ ⟨rfl, hc⟩
  refine (h.toRef mbc c).bind ?_
  rintro r _ ⟨rfl, hr⟩
  exact .pure ⟨rfl, h.point ▸ h.withJac (hr.trans hc) (hr.trans hc)⟩

theorem bodyJacobian (h : J.Same mb J') (mbc : MBC K) :
    Alike (fun r r' => r.jac = r'.jac ∧ r.Same mb r') (J.bodyJacobian mb mbc) (J'.bodyJacobian mb mbc) := by
  unfold Jac.bodyJacobian
  rw [h.back, h.point]
  refine .same _ fun N _ => .same _ fun W _ => (h.fill mbc _).bind ?_
  rintro c _ ⟨rfl, hc⟩
  exact .pure ⟨rfl, h.point ▸ h.withJac hc hc⟩

theorem jacobianDot (h : J.Same mb J') (mbc : MBC K) :
    Alike (fun r r' => r.jacDot = r'.jacDot ∧ r.jac = J.jac ∧ r'.jac = J'.jac ∧ r.Same mb r') (J.jacobianDot mb mbc) (J'.jacobianDot mb mbc) := by
  unfold Jac.jacobianDot
  rw [h.back, h.point, h.path]
  refine .same _ fun N _ => .same _ fun W _ => .same _ fun V _ => .same _ fun VW _ => ?_
  refine Alike.bind (fillCols_alike (π := id) (h.path ▸ h.jacDot) (h.path ▸ h.jacDot') ?_) ?_
  · intro index i g hg a x y
    obtain ⟨W, -, hg⟩ := Res.bind_eq_ok.1 hg
    obtain ⟨V, -, hg⟩ := Res.bind_eq_ok.1 hg
    cases hg
    exact .refl (fun _ => rfl) _
  · rintro ⟨s, c⟩ ⟨t, c'⟩ ⟨h1, h2, h3⟩
    simp only [List.map_id] at h3
    have e := h.withJacDot h1 h2
    rw [h.path, h.point] at e
    exact .pure ⟨h3, rfl, rfl, e⟩

theorem bodyJacobianDot (h : J.Same mb J') (mbc : MBC K) :
    Alike (fun r r' => r.jacDot = r'.jacDot ∧ r.jac = J.jac ∧ r'.jac = J'.jac ∧ r.Same mb r')
      (J.bodyJacobianDot mb mbc) (J'.bodyJacobianDot mb mbc) := by
  unfold Jac.bodyJacobianDot
  rw [h.back, h.point, h.path]
  refine .same _ fun N _ => .same _ fun W _ => .same _ fun V _ => ?_
  refine Alike.bind (fillCols_alike (π := id) (h.path ▸ h.jacDot) (h.path ▸ h.jacDot') ?_) ?_
  · intro index i g hg a x y
    obtain ⟨W, -, hg⟩ := Res.bind_eq_ok.1 hg
    obtain ⟨V, -, hg⟩ := Res.bind_eq_ok.1 hg
    cases hg
    exact .refl (fun _ => rfl) _
  · rintro ⟨s, c⟩ ⟨t, c'⟩ ⟨h1, h2, h3⟩
    simp only [List.map_id] at h3
    have e := h.withJacDot h1 h2
    rw [h.path, h.point] at e
    exact .pure ⟨h3, rfl, rfl, e⟩

theorem vectorJacobian (h : J.Same mb J') (mbc : MBC K) (v : Vec3 K) :
    Alike (fun r r' => r.jac.map MotionVec.lin = r'.jac.map MotionVec.lin ∧ r.Same mb r') (J.vectorJacobian mb mbc v)
      (J'.vectorJacobian mb mbc v) := by
  unfold Jac.vectorJacobian
  rw [h.back, h.point, h.path]
  refine .same _ fun N _ => .same _ fun W _ => ?_
  refine Alike.bind (fillCols_alike (π := MotionVec.lin) (h.path ▸ h.jac) (h.path ▸ h.jac') ?_) ?_
  · intro index i g hg a x y
    obtain ⟨W, -, hg⟩ := Res.bind_eq_ok.1 hg
    cases hg
    exact .same _ fun _ _ => .same _ fun _ _ => .pure rfl
  · rintro ⟨s, c⟩ ⟨t, c'⟩ ⟨h1, h2, h3⟩
    have e := h.withJac h1 h2
    rw [h.path, h.point] at e
    exact .pure ⟨h3, e⟩

theorem vectorBodyJacobian (h : J.Same mb J') (mbc : MBC K) (v : Vec3 K) :
    Alike (fun r r' => r.jac.map MotionVec.lin = r'.jac.map MotionVec.lin ∧ r.Same mb r') (J.vectorBodyJacobian mb mbc v)
      (J'.vectorBodyJacobian mb mbc v) := by
  unfold Jac.vectorBodyJacobian
  rw [h.back, h.point, h.path]
  refine .same _ fun N _ => .same _ fun W _ => ?_
  refine Alike.bind (fillCols_alike (π := MotionVec.lin) (h.path ▸ h.jac) (h.path ▸ h.jac') ?_) ?_
  · intro index i g hg a x y
    obtain ⟨W, -, hg⟩ := Res.bind_eq_ok.1 hg
    cases hg
    exact .same _ fun _ _ => .same _ fun _ _ => .pure rfl
  · rintro ⟨s, c⟩ ⟨t, c'⟩ ⟨h1, h2, h3⟩
    have e := h.withJac h1 h2
    rw [h.path, h.point] at e
    exact .pure ⟨h3, e⟩

end Jac.Same

end RBDyn

import Verif.Base.Err

/-! `std::vector` access with a signed index cast to `size_t`, and `std::unordered_map`. -/

namespace RBDyn
variable {α : Type _}

/-- `v[static_cast<size_t>(i)]` for an `int i`: a negative `i` becomes a huge index, hence undefined behaviour. -/
def rdI (l : List α) (i : Int) : Res α := if i < 0 then .error .ub else rd l i.toNat

/-- `v[static_cast<size_t>(i)] = a` for an `int i`. -/
def wrI (l : List α) (i : Int) (a : α) : Res (List α) := if i < 0 then .error .ub else wr l i.toNat a

/-- `v.at(static_cast<size_t>(i))` for an `int i`. -/
def rdAtI (l : List α) (i : Int) : Res α := if i < 0 then .error .outOfRange else rdAt l i.toNat

/-- `v.at(static_cast<size_t>(i)) = a` for an `int i`. -/
def wrAtI (l : List α) (i : Int) (a : α) : Res (List α) :=
  if i < 0 then .error .outOfRange else if i.toNat < l.length then .ok (l.set i.toNat a) else .error .outOfRange

/-- `std::unordered_map<std::string, α>`: association list without duplicate keys (the iteration order is not
observable). -/
abbrev SMap (α : Type _) := List (String × α)

namespace SMap
/-- `m[k] = v` -/
def set (m : SMap α) (k : String) (v : α) : SMap α := (k, v) :: m.filter (fun e => e.1 != k)
/-- `m.find(k)` -/
def find (m : SMap α) (k : String) : Option α := (m.find? (fun e => e.1 == k)).map (·.2)
/-- `m.erase(k)` -/
def erase (m : SMap α) (k : String) : SMap α := m.filter (fun e => e.1 != k)
/-- `m.find(k)->second`: undefined behaviour if the key is absent. -/
def get (m : SMap α) (k : String) : Res α :=
  match m.find k with
  | some v => .ok v
  | none => .error .ub
/-- `m.at(k)` -/
def getAt (m : SMap α) (k : String) : Res α :=
  match m.find k with
  | some v => .ok v
  | none => .error .outOfRange

@[simp] theorem find_nil (k : String) : find ([] : SMap α) k = none := rfl

theorem find_filter_ne (m : SMap α) {k k' : String} (h : k' ≠ k) :
    find (m.filter (fun e => e.1 != k)) k' = m.find k' := by
  unfold find
  congr 1
  rw [List.find?_filter]
  congr 1
  funext e
  by_cases he : e.1 = k'
  · simp [he, h]
  · simp [he]

theorem find_set (m : SMap α) (k k' : String) (v : α) :
    (m.set k v).find k' = if k' = k then some v else m.find k' := by
  by_cases h : k' = k
  · subst h; simp [set, find]
  · rw [if_neg h, ← find_filter_ne m h]
    simp [set, find, Ne.symm h]

theorem find_erase (m : SMap α) (k k' : String) :
    (m.erase k).find k' = if k' = k then none else m.find k' := by
  by_cases h : k' = k
  · subst h
    simp [erase, find, List.find?_eq_none]
  · rw [if_neg h]; exact find_filter_ne m h

end SMap

@[simp] theorem rdI_ofNat (l : List α) (i : Nat) : rdI l (i : Int) = rd l i := by
  unfold rdI; rw [if_neg (by omega)]; rfl

@[simp] theorem wrI_ofNat (l : List α) (i : Nat) (a : α) : wrI l (i : Int) a = wr l i a := by
  unfold wrI; rw [if_neg (by omega)]; rfl

end RBDyn

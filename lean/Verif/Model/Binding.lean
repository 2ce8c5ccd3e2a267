import Verif.Model.MultiBody
import Verif.Model.Visuals

/-!
Model of parts of the python bindings: the comparisons of `binding/python/rbdyn/parsers/parsers.pyx`, the pickling functions and the
sequence wrappers of `binding/python/rbdyn/rbdyn.pyx` with `binding/python/include/rbdyn_wrapper.hpp`.

The behaviour of Cython and of the interpreter that the model relies on:
- an argument declared with an extension type must be an instance of it (`TypeError`) or `None`; a field of `None` is then read
  without a check, which is undefined;
- the conversion of a negative or too large integer to an unsigned C type raises `OverflowError`;
- `and` evaluates its right operand only if the left one is true;
- `vector::at` is declared `except +`, so that `std::out_of_range` becomes `IndexError`;
- the functions `get...` and `..._set_item` of the wrapper headers are declared without `except`: an exception thrown in them, as well
  as an access out of bounds, ends the program or worse, which is the outcome `crash`.
-/

namespace RBDyn
variable {K : Type}

/-- How a python call can fail. `crash`: undefined behaviour or the end of the program, not a python exception. -/
inductive PyErr where
  | indexError | overflowError | typeError | valueError | notImplemented | crash
  deriving DecidableEq, Repr

/-- The outcome of a python call. -/
abbrev PyRes (α : Type _) := Except PyErr α

/-- The argument `op` of `__richcmp__`: 0 to 5. -/
inductive PyOp where
  | lt | le | eq | ne | gt | ge
  deriving DecidableEq, Repr

section
variable [Scalar K]

/-! ### Comparisons, parsers.pyx -/

/-- `__richcmp__` of `GeometryMesh` (parsers.pyx:47-59), `GeometryBox` (parsers.pyx:74-80), `GeometryCylinder` (parsers.pyx:98-110),
`GeometrySphere` (parsers.pyx:125-131) and `GeometrySuperellipsoid` (parsers.pyx:152-166). -/
def GData.pyCmp (op : PyOp) (a b : GData K) : PyRes Bool :=
  match a, b with
  | .mesh f s, .mesh f' s' =>
    match op with
    | .eq => .ok (decide (f = f') && decide (s = s'))
    | .ne => .ok (decide (f ≠ f') && decide (s ≠ s'))
    | _ => .error .notImplemented
  | .box s, .box s' =>
    match op with
    | .eq => .ok (decide (s = s'))
    | .ne => .ok (decide (s ≠ s'))
    | _ => .error .notImplemented
  | .cylinder r l, .cylinder r' l' =>
    match op with
    | .eq => .ok (decide (r = r') && decide (l = l'))
    | .ne => .ok (decide (r ≠ r') && decide (l ≠ l'))
    | _ => .error .notImplemented
  | .sphere r, .sphere r' =>
    match op with
    | .eq => .ok (decide (r = r'))
    | .ne => .ok (decide (r ≠ r'))
    | _ => .error .notImplemented
  | .superellipsoid s e1 e2, .superellipsoid s' e1' e2' =>
    match op with
    | .eq => .ok (decide (s = s') && decide (e1 = e1') && decide (e2 = e2'))
    | .ne => .ok (decide (s ≠ s') && decide (e1 ≠ e1') && decide (e2 ≠ e2'))
    | _ => .error .notImplemented
  | _, _ => .error .typeError

/-- The property `data` of `Geometry`, parsers.pyx:210-226, with the functions `get...` of rbdyn_parsers_wrapper.hpp:12-35: `boost::get` of
another alternative throws. -/
def Geometry.pyData (g : Geometry K) : PyRes (Option (GData K)) :=
  match g.type, g.data with
  | .MESH, .mesh f s => .ok (some (.mesh f s))
  | .BOX, .box s => .ok (some (.box s))
  | .CYLINDER, .cylinder r l => .ok (some (.cylinder r l))
  | .SPHERE, .sphere r => .ok (some (.sphere r))
  | .SUPERELLIPSOID, .superellipsoid s e1 e2 => .ok (some (.superellipsoid s e1 e2))
  | .UNKNOWN, _ => .ok none
  | _, _ => .error .crash

/-- `a == b` and `a != b` for two values of the property `data`: two `None` are equal; a comparison of `None` with an object ends in the
`__richcmp__` of the object with `None` for the other operand, whose fields are read. -/
def pyDataCmp (op : PyOp) (a b : Option (GData K)) : PyRes Bool :=
  match a, b with
  | some a, some b => a.pyCmp op b
  | none, none =>
    match op with
    | .eq => .ok true
    | .ne => .ok false
    | _ => .error .typeError
  | _, _ => .error .crash

/-- `Geometry.__richcmp__`, parsers.pyx:228-234. -/
def Geometry.pyCmp (op : PyOp) (a b : Geometry K) : PyRes Bool :=
  match op with
  | .eq => if a.type = b.type then do
      let x ← a.pyData
      let y ← b.pyData
      pyDataCmp .eq x y
    else .ok false
  | .ne => if a.type ≠ b.type then do
      let x ← a.pyData
      let y ← b.pyData
      pyDataCmp .ne x y
    else .ok false
  | _ => .error .notImplemented

/-- `Visual.__richcmp__`, parsers.pyx:254-268. -/
def Visual.pyCmp (op : PyOp) (a b : Visual K) : PyRes Bool :=
  match op with
  | .eq => if a.name = b.name ∧ a.origin = b.origin then a.geometry.pyCmp .eq b.geometry else .ok false
  | .ne => if a.name ≠ b.name ∧ a.origin ≠ b.origin then a.geometry.pyCmp .ne b.geometry else .ok false
  | _ => .error .notImplemented

/-! ### Pickling, rbdyn.pyx -/

/-- `Body.pickle`, rbdyn.pyx:204-206: the arguments of `Body`. -/
def Body.pickle (b : Body K) : RBInertia K × String := (b.inertia, b.name)

/-- `Body(inertia, name)`, rbdyn.pyx:156-159 with Body.h:27-30. -/
def Body.unpickle (s : RBInertia K × String) : Body K := ⟨s.1, s.2⟩

/-- `Joint.pickle`, rbdyn.pyx:329-352: the arguments of `Joint`. A row of the motion subspace is read through its first element, and
`direction()` multiplies it. -/
def Joint.pickle (j : Joint K) : Res (JointType × Vec3 K × Bool × String) :=
  match j.type with
  | .Rev => do
    let s ← rd j.S 0
    return (j.type, j.dir • s.ang, j.isForward, j.name)
  | .Prism => do
    let s ← rd j.S 0
    return (j.type, j.dir • s.lin, j.isForward, j.name)
  | .Cylindrical => do
    let s ← rd j.S 0
    return (j.type, j.dir • s.ang, j.isForward, j.name)
  | .Spherical | .Planar | .Free | .Fixed => return (j.type, Vec3.unitZ, j.isForward, j.name)

/-- `Joint(type, axis, forward, name)`, rbdyn.pyx:239-243 and 256-259. -/
def Joint.unpickle (s : JointType × Vec3 K × Bool × String) : Joint K := Joint.mk' s.1 s.2.1 s.2.2.1 s.2.2.2

/-- What `MultiBody.pickle`, rbdyn.pyx:518-527, writes: the bodies and the joints of the lists are pickled in their turn. -/
structure PickledMB (K : Type) where
  bodies : List (RBInertia K × String)
  joints : List (JointType × Vec3 K × Bool × String)
  pred : List Int
  succ : List Int
  parent : List Int
  Xt : List (PTransform K)
  deriving DecidableEq

/-- `MultiBody.pickle`, rbdyn.pyx:518-527. -/
def MultiBody.pickle (mb : MultiBody K) : Res (PickledMB K) := do
  let joints ← mb.joints.mapM Joint.pickle
  return ⟨mb.bodies.map Body.pickle, joints, mb.pred, mb.succ, mb.parent, mb.Xt⟩

/-- `MultiBody(bodies, joints, pred, succ, parent, Xt)`, rbdyn.pyx:380-408. -/
def MultiBody.unpickle (s : PickledMB K) : Res (MultiBody K) :=
  MultiBody.mk' (s.bodies.map Body.unpickle) (s.joints.map Joint.unpickle) s.pred s.succ s.parent s.Xt

end

/-! ### Sequence wrappers, rbdyn.pyx -/

section
variable {α : Type}

/-- The conversion of a python integer to `size_t`. -/
def toSize (i : Int) : PyRes Nat := if 0 ≤ i ∧ i < 2 ^ 64 then .ok i.toNat else .error .overflowError

/-- The conversion of a python integer to `unsigned int`. -/
def toUnsigned (i : Int) : PyRes Nat := if 0 ≤ i ∧ i < 2 ^ 32 then .ok i.toNat else .error .overflowError

/-- `self.v.at(i)` for a python integer. -/
def pyAt (v : List α) (i : Int) : PyRes α := do
  let k ← toSize i
  match v[k]? with
  | some x => .ok x
  | none => .error .indexError

/-- `dv_set_item` and `dvv_set_item`, rbdyn_wrapper.hpp:59-67, for a python integer: `operator[]` of `std::vector`. -/
def setItem (v : List α) (i : Int) (x : α) : PyRes (List α) := do
  let k ← toUnsigned i
  if k < v.length then .ok (v.set k x) else .error .crash

/-- `self.v.size() - 1`, computed in `size_t`. -/
def lastIndex (v : List α) : Int := if v.length = 0 then 2 ^ 64 - 1 else v.length - 1

/-- `__getitem__` of `DoubleVectorWrapper` (rbdyn.pyx:37-42) and of `DoubleVectorVectorWrapper` (rbdyn.pyx:106-112), for an integer. -/
def pyGetItem (v : List α) (idx : Int) : PyRes α :=
  let idx := if idx = -1 then lastIndex v else idx
  if idx < v.length then pyAt v idx else .error .indexError

/-- `__setitem__` of `DoubleVectorWrapper` (rbdyn.pyx:57-58) and of `DoubleVectorVectorWrapper` (rbdyn.pyx:127-128), for an integer. -/
def pySetItem (v : List α) (idx : Int) (x : α) : PyRes (List α) := setItem v idx x

/-- A python `slice`. -/
structure Slice where
  start : Option Int := none
  stop : Option Int := none
  step : Option Int := none
  deriving DecidableEq, Repr

/-- `xrange(start, stop, step)`, with the number of its elements. -/
def pyRange (start stop step : Int) : PyRes (List Int) :=
  if step = 0 then .error .valueError
  else
    let n := if 0 < step then (stop - start + step - 1) / step else (start - stop - step - 1) / (-step)
    .ok ((List.range n.toNat).map fun k : Nat => start + (k : Int) * step)

/-- The `xrange` of the slice loops: rbdyn.pyx:46-53, 95-102 and 116-123. -/
def Slice.indices (s : Slice) (size : Nat) : PyRes (List Int) :=
  pyRange (s.start.getD 0) (s.stop.getD size) (s.step.getD 1)

/-- `__getitem__` of `DoubleVectorVectorWrapper` for a slice, rbdyn.pyx:94-105. (The one of `DoubleVectorWrapper`, rbdyn.pyx:34-35, converts
the slice to an integer, which raises `TypeError`.) -/
def pyGetSlice (v : List α) (s : Slice) : PyRes (List α) := do
  let is ← s.indices v.length
  is.mapM (pyAt v)

/-- `__setitem__` of both wrappers for a slice, rbdyn.pyx:45-56 and 115-126. The vector left by a call that fails is not modelled. -/
def pySetSlice (v : List α) (s : Slice) (values : List α) : PyRes (List α) := do
  let is ← s.indices v.length
  let r ← is.foldlM (init := (v, 0)) fun st i => do
    match values[st.2]? with
    | some x =>
      let w ← setItem st.1 i x
      .ok (w, st.2 + 1)
    | none => .error .indexError
  return r.1

/-- `__getitem__` of `MultiBodyVector` (rbdyn.pyx:548-554) and of `MultiBodyConfigVector` (rbdyn.pyx:902-908): the index is an `int`, and
`idx < size` compares it as a `size_t`. (The vector has fewer than `2 ^ 31` elements.) -/
def pyGetItemInt (v : List α) (idx : Int) : PyRes α :=
  if ¬(-2 ^ 31 ≤ idx ∧ idx < 2 ^ 31) then .error .overflowError
  else
    let idx := if idx = -1 then (v.length : Int) - 1 else idx
    if 0 ≤ idx ∧ idx < v.length then pyAt v idx else .error .indexError

/-- `MultiBodyConfigVector.__setitem__`, rbdyn.pyx:910-914, with `mbcv_set_item`, rbdyn_wrapper.hpp:69-72. -/
def pySetItemInt (v : List α) (idx : Int) (x : α) : PyRes (List α) :=
  if ¬(-2 ^ 31 ≤ idx ∧ idx < 2 ^ 31) then .error .overflowError
  else if 0 ≤ idx ∧ idx < v.length then setItem v idx x else .error .indexError

end

end RBDyn

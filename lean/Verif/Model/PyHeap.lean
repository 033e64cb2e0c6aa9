import Verif.Model.Py

/-!
# The Python class with references

Models the part of `python/tinyfk/__init__.py` (and of CPython's `copy` and `pickle`) that `Model/Py` leaves out:
arguments are objects that the caller may change later, the histories are list objects, and two models can share
them. A history entry holds references to the caller's objects (`args = [joint_ids, q, base_type]`).
-/

namespace Tinyfk

open Scalar

/-- A reference to an object of the caller: a list of joint ids, an array of numbers, an array of three
numbers. -/
inductive Ref where
  | ids (n : Nat)
  | arr (n : Nat)
  | vec (n : Nat)
  deriving DecidableEq, Repr

/-- An argument in a history: the object of the caller with this number, or an object that nobody else has a
reference to (made by `copy.deepcopy`). -/
inductive HArg (α : Type) where
  | ref (n : Nat)
  | own (a : α)

/-- the present content of an argument -/
def HArg.get {α : Type} (h : Nat → α) : HArg α → α
  | .ref n => h n
  | .own a => a

/-- __init__.py:226 an entry of `_add_new_link_history`; strings and numbers cannot be changed -/
structure AddRef (K : Type) where
  name : String
  parent : Nat
  position : HArg (Vec3 K)
  rpy : Option (HArg (Vec3 K))

/-- __init__.py:80 an entry of `_set_joint_angles_history` -/
structure SetRef (K : Type) where
  ids : HArg (List Nat)
  q : HArg (List K)
  base : BaseType

/-- __init__.py:42-56 an instance of `KinematicModel`; `adds` and `sets` are references to list objects -/
structure PyObj (K : Type) where
  xml : String
  robot : KinModel K
  adds : Nat
  sets : Nat

/-- The objects of a Python program. -/
structure World (K : Type) where
  /-- lists of joint ids -/
  ids : Nat → List Nat
  /-- arrays of numbers -/
  arr : Nat → List K
  /-- arrays of three numbers -/
  vec : Nat → Vec3 K
  /-- history lists of `add_new_link` -/
  adds : Nat → List (AddRef K)
  /-- history lists of `set_q` -/
  sets : Nat → List (SetRef K)
  /-- the models -/
  objs : Nat → PyObj K
  /-- the number of models -/
  count : Nat

/-- assignment to one object -/
def upd {α : Type} (f : Nat → α) (i : Nat) (a : α) : Nat → α := fun j => if j = i then a else f j

variable {K : Type} [Scalar K]

/-- an entry with the present content of its arguments -/
def AddRef.get (w : World K) (a : AddRef K) : AddArgs K :=
  ⟨a.name, a.parent, a.position.get w.vec, a.rpy.map (HArg.get w.vec)⟩

/-- an entry with the present content of its arguments -/
def SetRef.get (w : World K) (a : SetRef K) : SetArgs K := ⟨a.ids.get w.ids, a.q.get w.arr, a.base⟩

/-- `copy.deepcopy` of an entry -/
def AddRef.deepcopy (w : World K) (a : AddRef K) : AddRef K :=
  ⟨a.name, a.parent, .own (a.position.get w.vec), a.rpy.map fun r => .own (r.get w.vec)⟩

/-- `copy.deepcopy` of an entry -/
def SetRef.deepcopy (w : World K) (a : SetRef K) : SetRef K := ⟨.own (a.ids.get w.ids), .own (a.q.get w.arr), a.base⟩

/-- model `o` with its histories, as values -/
def World.view (w : World K) (o : Nat) : PyModel K :=
  ⟨(w.objs o).xml, (w.objs o).robot, (w.adds (w.objs o).adds).map (AddRef.get w),
    (w.sets (w.objs o).sets).map (SetRef.get w)⟩

/-- a method of model `o` that does not touch the histories -/
def hCall {α : Type} (o : Nat) (p : Prog (PyModel K) α) : Prog (World K) α := fun w =>
  match p (w.view o) with
  | .ok a s => .ok a { w with objs := upd w.objs o { w.objs o with robot := s.robot } }
  | .exn e s => .exn e { w with objs := upd w.objs o { w.objs o with robot := s.robot } }
  | .ub u => .ub u
  | .hang => .hang

/-- __init__.py:77-96 `set_q`: the entry with references is appended to the list object, then the rest of
`Tinyfk.pySetQ` runs on the present content of the arguments -/
def hSetQ (o : Nat) (a : SetRef K) : Prog (World K) Unit := do
  Prog.modify fun w => { w with sets := upd w.sets (w.objs o).sets (w.sets (w.objs o).sets ++ [a]) }
  let w ← Prog.get
  hCall o (pySetQ (a.get w).ids (a.get w).q a.base)

/-- __init__.py:223-231 `add_new_link`, likewise -/
def hAddNewLink (o : Nat) (a : AddRef K) : Prog (World K) Unit := do
  Prog.modify fun w => { w with adds := upd w.adds (w.objs o).adds (w.adds (w.objs o).adds ++ [a]) }
  let w ← Prog.get
  hCall o (pyAddNewLink (a.get w))

/-- a new model with robot `r` and new, empty histories; its number is the number of models so far -/
def World.alloc (w : World K) (xml : String) (r : KinModel K) : World K :=
  { w with
    objs := upd w.objs w.count ⟨xml, r, w.count, w.count⟩
    adds := upd w.adds w.count []
    sets := upd w.sets w.count []
    count := w.count + 1 }

/-- __init__.py:47-56 `__init__(xml_text=...)` -/
def hNew (parse : String → Option (ModelInterface K)) (xml : String) : Prog (World K) Nat := fun w =>
  match pyInit parse xml with
  | .ok s => .ok w.count (w.alloc xml s.robot)
  | .exn e => .exn e w
  | .ub u => .ub u
  | .hang => .hang

/-- `pickle.loads(pickle.dumps(model))` (275-290). What `dumps` writes are the present values of everything in the
histories; `loads` makes new objects that nobody else refers to, which `__setstate__` replays and drops.
`copy.deepcopy(model)` has the same effect. -/
def hPickle (parse : String → Option (ModelInterface K)) (o : Nat) : Prog (World K) Nat := fun w =>
  match pySetState parse (pyGetState (w.view o)) with
  | .ok s => .ok w.count (w.alloc s.xml s.robot)
  | .exn e => .exn e w
  | .ub u => .ub u
  | .hang => .hang

/-- `copy.copy(model)`: `__getstate__` (275-278) copies the dictionary but not the lists, `__setstate__` (280-290) gives
the same list objects to the copy `y` and replays; each replayed call appends to them. At the end `y` gets new
lists. If the replay raises, nobody has a reference to `y`, and its number is free again. -/
def hCopy (parse : String → Option (ModelInterface K)) (o : Nat) : Prog (World K) Nat := fun w =>
  match constructXml parse (w.objs o).xml with
  | .ok r =>
    let y := w.count
    let replay : Prog (World K) Unit := do
      let w1 ← Prog.get
      Prog.forEach ((w1.adds (w1.objs y).adds).map (AddRef.deepcopy w1)) (fun a _ => hAddNewLink y a) ()
      let w2 ← Prog.get
      Prog.forEach ((w2.sets (w2.objs y).sets).map (SetRef.deepcopy w2)) (fun a _ => hSetQ y a) ()
    match replay { w with objs := upd w.objs y { w.objs o with robot := r } } with
    | .ok _ w' => .ok y (w'.alloc (w'.objs y).xml (w'.objs y).robot)
    | .exn e w' => .exn e w'
    | .ub u => .ub u
    | .hang => .hang
  | .exn e => .exn e w
  | .ub u => .ub u
  | .hang => .hang

end Tinyfk

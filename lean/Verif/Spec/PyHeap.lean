import Verif.Model.PyHeap
import Verif.Spec.Pickle

/-!
# Specification: Python programs that keep references to the arguments
-/

namespace Tinyfk

open Scalar

variable {K : Type} [Scalar K]

/-- Statements of a Python program that uses several models and its own arrays. Models and arrays are known by
their number. -/
inductive HOp (K : Type) where
  /-- `KinematicModel(xml_text=xml)` -/
  | new (xml : String)
  /-- `o.set_q(ids, q, bt)` -/
  | setQ (o ids q : Nat) (bt : BaseType)
  /-- `o.add_new_link(name, parent, position, rpy)` -/
  | addNewLink (o : Nat) (name : String) (parent position : Nat) (rpy : Option Nat)
  /-- any other method of `o` -/
  | call (o : Nat) (c : PyCall K) (h : ¬c.IsRecorded)
  /-- `ids[:] = v` -/
  | writeIds (r : Nat) (v : List Nat)
  /-- `q[:] = v`; a numpy array cannot change its length -/
  | writeArr (r : Nat) (v : List K)
  /-- `position[:] = v` -/
  | writeVec (r : Nat) (v : Vec3 K)
  /-- `pickle.loads(pickle.dumps(o))` -/
  | pickle (o : Nat)
  /-- `copy.copy(o)` -/
  | copy (o : Nat)

/-- run a statement -/
def HOp.run (parse : String → Option (ModelInterface K)) : HOp K → Prog (World K) Unit
  | .new xml => Prog.bind (hNew parse xml) fun _ => Prog.pure ()
  | .setQ o ids q bt => hSetQ o ⟨.ref ids, .ref q, bt⟩
  | .addNewLink o name parent pos rpy => hAddNewLink o ⟨name, parent, .ref pos, rpy.map .ref⟩
  | .call o c _ => hCall o c.run
  | .writeIds r v => Prog.modify fun w => { w with ids := upd w.ids r v }
  | .writeArr r v => fun w =>
    if v.length = (w.arr r).length then .ok () { w with arr := upd w.arr r v }
    else .exn (.valueError "could not broadcast input array") w
  | .writeVec r v => Prog.modify fun w => { w with vec := upd w.vec r v }
  | .pickle o => Prog.bind (hPickle parse o) fun _ => Prog.pure ()
  | .copy o => Prog.bind (hCopy parse o) fun _ => Prog.pure ()

/-- the model a statement works on -/
def HOp.on : HOp K → Option Nat
  | .setQ o .. | .addNewLink o .. | .call o .. | .pickle o | .copy o => some o
  | _ => none

/-- the object a statement writes to -/
def HOp.writes : HOp K → Option Ref
  | .writeIds r _ => some (.ids r)
  | .writeArr r _ => some (.arr r)
  | .writeVec r _ => some (.vec r)
  | _ => none

/-- the objects a statement passes to a recorded method of model `o` -/
def HOp.passes (o : Nat) : HOp K → List Ref
  | .setQ o' ids q _ => if o' = o then [.ids ids, .arr q] else []
  | .addNewLink o' _ _ pos rpy => if o' = o then .vec pos :: (rpy.map Ref.vec).toList else []
  | _ => []

/-- The program never changes an object after it has passed it to `o.set_q` or `o.add_new_link`. -/
def Untouched (o : Nat) (ops : List (HOp K)) : Prop :=
  ∀ pre op post, ops = pre ++ op :: post → ∀ r, op.writes = some r → r ∉ pre.flatMap (HOp.passes o)

/-- The program never changes a list of joint ids or a position after it has passed it to `o.set_q` or
`o.add_new_link`; it may change arrays of configurations. -/
def UntouchedButQ (o : Nat) (ops : List (HOp K)) : Prop :=
  ∀ pre op post, ops = pre ++ op :: post → ∀ r, op.writes = some r → (∃ n, r = .arr n) ∨ r ∉ pre.flatMap (HOp.passes o)

/-- a `set_q` on model `o`, with these joints and this kind of base -/
def HOp.SetsTo (o ids : Nat) (bt : BaseType) : HOp K → Prop
  | .setQ o' ids' _ bt' => o' = o ∧ ids' = ids ∧ bt' = bt
  | _ => False

/-- a `set_q` on model `o` -/
def HOp.Sets (o : Nat) : HOp K → Prop
  | .setQ o' .. => o' = o
  | _ => False

/-- The last `set_q` on `o` in the program had the array `q`, which was not changed afterwards. -/
def LastKept (o q : Nat) (ops : List (HOp K)) : Prop :=
  ∃ a ids bt b, ops = a ++ .setQ o ids q bt :: b ∧ ∀ x ∈ b, ¬x.Sets o ∧ x.writes ≠ some (.arr q)

/-- any program, from a start without models, whose statements return or raise an exception that is handled; a
statement uses only models that exist -/
inductive HRuns (parse : String → Option (ModelInterface K)) : World K → List (HOp K) → World K → Prop
  | nil {w : World K} : w.count = 0 → HRuns parse w [] w
  | ok {w w1 w2 : World K} {ops : List (HOp K)} {op : HOp K} : HRuns parse w ops w1 →
      (∀ o, op.on = some o → o < w1.count) → op.run parse w1 = .ok () w2 → HRuns parse w (ops ++ [op]) w2
  | exn {w w1 w2 : World K} {ops : List (HOp K)} {op : HOp K} {e : Exn} : HRuns parse w ops w1 →
      (∀ o, op.on = some o → o < w1.count) → op.run parse w1 = .exn e w2 → HRuns parse w (ops ++ [op]) w2

/-- a statement that leaves model `o` alone, reads it, or is a `set_q` or `add_new_link` on it -/
def HOp.Gentle (o : Nat) : HOp K → Prop
  | .call o' c _ => o' = o → c.IsRead
  | .copy o' => o' ≠ o
  | _ => True

/-- a `set_q` or `add_new_link` on model `o` -/
def HOp.RecordedOn (o : Nat) : HOp K → Prop
  | .setQ o' .. => o' = o
  | .addNewLink o' .. => o' = o
  | _ => False

/-- an `add_new_link` on model `o` -/
def HOp.AddsTo (o : Nat) : HOp K → Prop
  | .addNewLink o' .. => o' = o
  | _ => False

/-- `Life parse o w ops w'`: the statements `ops` after the construction of model `o`; other models may be used in
any way, `o` itself is only changed by `set_q` and `add_new_link` calls that return. -/
inductive Life (parse : String → Option (ModelInterface K)) (o : Nat) : World K → List (HOp K) → World K → Prop
  | nil {w : World K} : Life parse o w [] w
  | ok {w w1 w2 : World K} {ops : List (HOp K)} {op : HOp K} : Life parse o w ops w1 → op.Gentle o →
      (∀ o', op.on = some o' → o' < w1.count) → op.run parse w1 = .ok () w2 → Life parse o w (ops ++ [op]) w2
  | exn {w w1 w2 : World K} {ops : List (HOp K)} {op : HOp K} {e : Exn} : Life parse o w ops w1 → op.Gentle o →
      ¬op.RecordedOn o → (∀ o', op.on = some o' → o' < w1.count) → op.run parse w1 = .exn e w2 →
      Life parse o w (ops ++ [op]) w2

end Tinyfk

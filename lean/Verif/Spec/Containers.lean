import Verif.Model.DataStructure

/-!
# Specification: a bounded partial map and a bounded list

What the two containers of `data_structure.hpp` should behave like, on any sequence of
operations. Results of the reading operations are collected in order; an operation outside
the bounds makes the whole run fail (`none`).
-/

namespace Tinyfk

variable {D E : Type}

/-- operations of `SizedCache` -/
inductive CacheOp (D : Type) where
  | set (id : Nat) (d : D)
  | get (id : Nat)
  | extend
  | clear

/-- a map from ids below `size` to values -/
structure PMap (D : Type) where
  size : Nat
  val : Nat → Option D

/-- run operations on the partial map -/
def PMap.run : List (CacheOp D) → PMap D → Option (List (Option D))
  | [], _ => some []
  | .set i d :: ops, p =>
    if i < p.size then PMap.run ops ⟨p.size, fun k => if k = i then some d else p.val k⟩ else none
  | .get i :: ops, p =>
    if i < p.size then (PMap.run ops p).map (p.val i :: ·) else none
  | .extend :: ops, p => PMap.run ops ⟨p.size + 1, fun _ => none⟩
  | .clear :: ops, p => PMap.run ops ⟨p.size, fun _ => none⟩

/-- run the same operations on the cache of the library -/
def SizedCache.run (dflt : D) : List (CacheOp D) → SizedCache D → Outcome (List (Option D))
  | [], _ => .ok []
  | .set i d :: ops, c => (c.setCache i d).bind fun c => SizedCache.run dflt ops c
  | .get i :: ops, c => (c.getCache i).bind fun r =>
    (SizedCache.run dflt ops c).bind fun rs => .ok (r :: rs)
  | .extend :: ops, c => SizedCache.run dflt ops (c.extend dflt)
  | .clear :: ops, c => SizedCache.run dflt ops c.clear

/-- operations of `SizedStack` -/
inductive StackOp (E : Type) where
  | push (e : E)
  | pop
  | top
  | size
  | empty
  | reset

/-- what the reading operations of a stack return -/
inductive StackOut (E : Type) where
  | elem (e : E)
  | size (n : Nat)
  | empty (b : Bool)

/-- run operations on a list (head = top) that may hold at most `cap` elements -/
def listRun (cap : Nat) : List (StackOp E) → List E → Option (List (StackOut E))
  | [], _ => some []
  | .push e :: ops, l => if l.length < cap then listRun cap ops (e :: l) else none
  | .pop :: ops, l => match l with
    | [] => none
    | _ :: l => listRun cap ops l
  | .top :: ops, l => match l with
    | [] => none
    | e :: l => (listRun cap ops (e :: l)).map (.elem e :: ·)
  | .size :: ops, l => (listRun cap ops l).map (.size l.length :: ·)
  | .empty :: ops, l => (listRun cap ops l).map (.empty l.isEmpty :: ·)
  | .reset :: ops, _ => listRun cap ops []

/-- run the same operations on the stack of the library -/
def SizedStack.run : List (StackOp E) → SizedStack E → Outcome (List (StackOut E))
  | [], _ => .ok []
  | .push e :: ops, s => (s.push e).bind fun s => SizedStack.run ops s
  | .pop :: ops, s => s.pop.bind fun s => SizedStack.run ops s
  | .top :: ops, s => s.top.bind fun e => (SizedStack.run ops s).bind fun rs => .ok (.elem e :: rs)
  | .size :: ops, s => (SizedStack.run ops s).bind fun rs => .ok (.size s.size :: rs)
  | .empty :: ops, s => (SizedStack.run ops s).bind fun rs => .ok (.empty s.empty :: rs)
  | .reset :: ops, s => SizedStack.run ops s.reset

end Tinyfk

/-!
# Outcomes of C++ / Python calls

A call can return normally, throw, run into undefined behaviour or never
return. These are four distinct outcomes, so that "no undefined behaviour" and
"terminates" are statements about the model rather than assumptions.
-/

namespace Tinyfk

/-- Reasons for undefined behaviour that the modelled code can reach. -/
inductive UB where
  /-- `operator[]` of a `std::vector`/Eigen matrix outside its bounds -/
  | outOfBounds (what : String)
  /-- dereference of a null `shared_ptr` -/
  | nullDeref (what : String)
  /-- read of an uninitialised member -/
  | uninit (what : String)
  deriving DecidableEq, Repr

/-- Exceptions thrown by the modelled code (C++ and Python layer). -/
inductive Exn where
  | invalidArgument (msg : String)
  | runtimeError (msg : String)
  | outOfRange (msg : String)
  | assertionError (msg : String)
  | valueError (msg : String)
  | indexError (msg : String)
  | typeError (msg : String)
  | osError (msg : String)
  deriving DecidableEq, Repr

/-- Outcome of a call that does not change any state (a C++ `const` function
without `mutable` effects, or a function on values). -/
inductive Outcome (α : Type) where
  | ok (a : α)
  | exn (e : Exn)
  | ub (u : UB)
  | hang
  deriving DecidableEq, Repr

namespace Outcome
variable {α β : Type}

def bind : Outcome α → (α → Outcome β) → Outcome β
  | .ok a, f => f a
  | .exn e, _ => .exn e
  | .ub u, _ => .ub u
  | .hang, _ => .hang

instance : Monad Outcome where
  pure := .ok
  bind := Outcome.bind

@[simp] theorem pure_eq (a : α) : (pure a : Outcome α) = .ok a := rfl
@[simp] theorem bind_ok (a : α) (f : α → Outcome β) : (Outcome.ok a).bind f = f a := rfl
@[simp] theorem bind_exn (e : Exn) (f : α → Outcome β) : (Outcome.exn e).bind f = .exn e := rfl
@[simp] theorem bind_ub (u : UB) (f : α → Outcome β) : (Outcome.ub u).bind f = .ub u := rfl
@[simp] theorem bind_hang (f : α → Outcome β) : (Outcome.hang).bind f = .hang := rfl
@[simp] theorem bind_eq (x : Outcome α) (f : α → Outcome β) : (x >>= f) = x.bind f := rfl

/-- `v[i]` for a `std::vector` without bounds check: out of range is UB. -/
def idx (what : String) (l : List α) (i : Nat) : Outcome α :=
  match l[i]? with
  | some a => .ok a
  | none => .ub (.outOfBounds what)

end Outcome

/-- Result of a call on an object with state `σ`: a thrown exception leaves the
object in some state, which callers can observe. -/
inductive Res (σ α : Type) where
  | ok (a : α) (s : σ)
  | exn (e : Exn) (s : σ)
  | ub (u : UB)
  | hang

/-- A method of an object with state `σ`. -/
def Prog (σ α : Type) : Type := σ → Res σ α

namespace Prog
variable {σ α β : Type}

@[simp] def pure (a : α) : Prog σ α := fun s => .ok a s

@[simp] def bind (x : Prog σ α) (f : α → Prog σ β) : Prog σ β := fun s =>
  match x s with
  | .ok a s' => f a s'
  | .exn e s' => .exn e s'
  | .ub u => .ub u
  | .hang => .hang

instance : Monad (Prog σ) where
  pure := Prog.pure
  bind := Prog.bind

@[simp] theorem pure_apply (a : α) (s : σ) : (Pure.pure a : Prog σ α) s = .ok a s := rfl
theorem bind_apply (x : Prog σ α) (f : α → Prog σ β) (s : σ) :
    (x >>= f) s = match x s with
      | .ok a s' => f a s'
      | .exn e s' => .exn e s'
      | .ub u => .ub u
      | .hang => .hang := rfl

/-- read the state -/
def get : Prog σ σ := fun s => .ok s s
/-- overwrite the state -/
def modify (f : σ → σ) : Prog σ Unit := fun s => .ok () (f s)
/-- throw -/
def throw (e : Exn) : Prog σ α := fun s => .exn e s
/-- run a computation that reads the state but does not change it -/
def read (f : σ → Outcome α) : Prog σ α := fun s =>
  match f s with
  | .ok a => .ok a s
  | .exn e => .exn e s
  | .ub u => .ub u
  | .hang => .hang
/-- a value computation -/
def lift (o : Outcome α) : Prog σ α := read fun _ => o

/-- `for (i = k; i < k + n; i++) body` with loop-carried locals `b`. -/
def forFrom (k : Nat) : Nat → (Nat → β → Prog σ β) → β → Prog σ β
  | 0, _, b => Prog.pure b
  | n + 1, body, b => Prog.bind (body k b) (forFrom (k + 1) n body)

/-- `for (i = 0; i < n; i++) body`. -/
def forN (n : Nat) (body : Nat → β → Prog σ β) (b : β) : Prog σ β := forFrom 0 n body b

/-- `for (x : xs) body`. -/
def forEach {ι : Type} : List ι → (ι → β → Prog σ β) → β → Prog σ β
  | [], _, b => Prog.pure b
  | x :: xs, body, b => Prog.bind (body x b) (forEach xs body)

end Prog
end Tinyfk

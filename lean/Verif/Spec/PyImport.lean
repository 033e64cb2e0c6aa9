import Verif.Model.PyImport

/-!
# Specification: what `import tinyfk` does to the home directory
-/

namespace Tinyfk

/-- Any interleaving of any number of processes, with the events. -/
inductive ImportState.Exec (data : DataFile → List Char) : ImportState → List (Nat × ImportEvent) → ImportState → Prop
  | nil {w : ImportState} : Exec data w [] w
  | snoc {w w1 w2 : ImportState} {tr : List (Nat × ImportEvent)} {e : Nat × ImportEvent} :
      Exec data w tr w1 → ImportState.Step data w1 e w2 → Exec data w (tr ++ [e]) w2

/-- a user who has never used the package: no directory, and no process has begun the import -/
def ImportState.fresh : ImportState := ⟨none, fun _ => .begin⟩

/-- both files are there as the server sent them -/
def Complete (data : DataFile → List Char) (d : Option CacheDir) : Prop := d = some ⟨some (data .pr2), some (data .fetch)⟩

end Tinyfk

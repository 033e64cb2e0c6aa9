import Verif.Model.Py

/-!
# What `import tinyfk` does to the home directory

`python/tinyfk/__init__.py`, lines 12-18, as run by any number of processes of the same user, each of which may be stopped at
any point. The directory is `~/.tinyfk`.

Simplified: nothing else writes to the directory; the server sends the same two files to everyone; `urlretrieve` opens the
connection, then the file (which creates or empties it), and then writes the file in pieces of any length. When the
connection breaks it raises and leaves the file as it is.
-/

namespace Tinyfk

/-- __init__.py:15-18, the two files that are downloaded -/
inductive DataFile where
  | pr2
  | fetch
  deriving DecidableEq

/-- __init__.py:12 `_cache_dir`: the bytes of each of the files that exist -/
structure CacheDir where
  pr2 : Option (List Char)
  fetch : Option (List Char)

/-- the contents of one of the files -/
def CacheDir.get (d : CacheDir) : DataFile → Option (List Char)
  | .pr2 => d.pr2
  | .fetch => d.fetch

/-- change one of the files -/
def CacheDir.put (d : CacheDir) (f : DataFile) (c : List Char) : CacheDir :=
  match f with
  | .pr2 => { d with pr2 := some c }
  | .fetch => { d with fetch := some c }

/-- where a process is in the statements of lines 12-18 -/
inductive ImportAt where
  /-- __init__.py:13, before `_cache_dir.exists()` -/
  | begin
  /-- __init__.py:14, before `_cache_dir.mkdir()` -/
  | mkdir
  /-- __init__.py:17-18, before `urlretrieve` opens the file -/
  | openFile (f : DataFile)
  /-- __init__.py:17-18, inside `urlretrieve`, with these bytes still to be written -/
  | write (f : DataFile) (rest : List Char)
  /-- the import has returned -/
  | returned
  /-- the import has raised -/
  | raised
  /-- the process was stopped during the import -/
  | dead

/-- the directory (`none`: it does not exist) and the processes -/
structure ImportState where
  disk : Option CacheDir
  procs : Nat → ImportAt

/-- a process goes on to `a` -/
def ImportState.goto (w : ImportState) (i : Nat) (a : ImportAt) : ImportState :=
  { w with procs := fun j => if j = i then a else w.procs j }

/-- what a process does in one step -/
inductive ImportEvent where
  | skip | miss | mkdir | exists | create | block | next | fail | stop
  deriving DecidableEq

/-- the stages in which a statement of lines 14-18 is being executed -/
def ImportAt.Busy : ImportAt → Prop
  | .mkdir => True
  | .openFile _ => True
  | .write _ _ => True
  | _ => False

/-- One step of some process. `data` is what the server sends. -/
inductive ImportState.Step (data : DataFile → List Char) : ImportState → Nat × ImportEvent → ImportState → Prop
  /-- __init__.py:13 the directory exists -/
  | skip {w : ImportState} {i : Nat} {d : CacheDir} : w.procs i = .begin → w.disk = some d →
      Step data w (i, .skip) (w.goto i .returned)
  /-- __init__.py:13 the directory does not exist -/
  | miss {w : ImportState} {i : Nat} : w.procs i = .begin → w.disk = none → Step data w (i, .miss) (w.goto i .mkdir)
  /-- __init__.py:14 -/
  | mkdir {w : ImportState} {i : Nat} : w.procs i = .mkdir → w.disk = none →
      Step data w (i, .mkdir) ({ w with disk := some ⟨none, none⟩ }.goto i (.openFile .pr2))
  /-- __init__.py:14 `mkdir` raises `FileExistsError` -/
  | exists {w : ImportState} {i : Nat} {d : CacheDir} : w.procs i = .mkdir → w.disk = some d →
      Step data w (i, .exists) (w.goto i .raised)
  /-- __init__.py:17-18 the file is opened for writing -/
  | create {w : ImportState} {i : Nat} {d : CacheDir} {f : DataFile} : w.procs i = .openFile f → w.disk = some d →
      Step data w (i, .create) ({ w with disk := some (d.put f []) }.goto i (.write f (data f)))
  /-- __init__.py:17-18 some bytes are written -/
  | block {w : ImportState} {i : Nat} {d : CacheDir} {f : DataFile} {b r c : List Char} : w.procs i = .write f (b ++ r) →
      b ≠ [] → w.disk = some d → d.get f = some c →
      Step data w (i, .block) ({ w with disk := some (d.put f (c ++ b)) }.goto i (.write f r))
  /-- __init__.py:17-18 the end of a download -/
  | next {w : ImportState} {i : Nat} {f : DataFile} : w.procs i = .write f [] →
      Step data w (i, .next) (w.goto i (match f with
        | .pr2 => .openFile .fetch
        | .fetch => .returned))
  /-- a statement raises -/
  | fail {w : ImportState} {i : Nat} : (w.procs i).Busy → Step data w (i, .fail) (w.goto i .raised)
  /-- the process is stopped -/
  | stop {w : ImportState} {i : Nat} : (w.procs i).Busy ∨ w.procs i = .begin → Step data w (i, .stop) (w.goto i .dead)

/-- `open(path, "r").read()` for one of the files. Simplified: the files are ASCII with `\n` at the ends of lines, as
`data/pr2.urdf` and `data/fetch.urdf` are; so the text has the characters of the bytes. -/
def readData (w : Option CacheDir) (f : DataFile) : Outcome String :=
  match w with
  | none => .exn (.osError "FileNotFoundError")
  | some d => match d.get f with
    | none => .exn (.osError "FileNotFoundError")
    | some c => .ok (String.ofList c)

/-- __init__.py:47-56 `__init__(urdfpath, xml_text)`. `read` is what `open(path, "r").read()` does. -/
def pyNew {K : Type} [Scalar K] (parse : String → Option (ModelInterface K)) (read : String → Outcome String)
    (urdfpath xmlText : Option String) : Outcome (PyModel K) :=
  if urdfpath.isNone != xmlText.isNone then
    match xmlText.filter (· ≠ "") with
    | some t => pyInit parse t
    | none => match urdfpath with
      | some path => Outcome.bind (read path) (pyInit parse)
      | none => .exn (.typeError "expected str, bytes or os.PathLike object, not NoneType")
  else .exn (.assertionError "(urdfpath is None) ^ (xml_text is None)")

end Tinyfk

import Verif.Vts.UnivModel

/-!
# Model of the example files (`vts/examples_parser.py`, `vts/checker.py`)

`write_sympy_parseable_examples` reads the sequents below `../GRF/Examples/MetiTarski` and stores them, converted to one
variable, with `pickle`; `unpickle_dirs`, `unpickle_dirs_gen` and `check_examples` read stored examples.

A file system is a list of directories and of files with their contents. Paths are lists of names, relative to the working
directory; symbolic links are left out, and so are missing permissions and full disks (crashes are modelled).
-/

namespace Verif.Vts

/-- the examples of one file -/
abbrev Examples := List (List (PyRel SPoly) × List (PyRel SPoly))

/-- `pickle.dump` and `pickle.load` -/
structure Pickle where
  dump : Examples → List Char
  load : List Char → Except Err Examples

/-- A path: the names of the directories and of the file. -/
abbrev Path := List (List Char)

/-- A file system; `ci`: upper and lower case letters are not distinguished in names. -/
structure Fs where
  ci : Bool
  dirs : List Path
  files : List (Path × List Char)
deriving DecidableEq

/-- The form of a path by which the system looks it up. -/
def Fs.key (fs : Fs) (p : Path) : Path := if fs.ci then p.map fun n => n.map Char.toLower else p

/-- whether `p` is a directory -/
def Fs.isDir (fs : Fs) (p : Path) : Bool := fs.dirs.any fun q => fs.key q == fs.key p

/-- whether `p` is a file -/
def Fs.isFile (fs : Fs) (p : Path) : Bool := fs.files.any fun q => fs.key q.1 == fs.key p

/-- The files that `os.walk(dir)` comes across, with their contents: those at any depth below `dir`, none if `dir` does not
exist. The order of `os.walk` is unspecified; the model takes the order of the list. -/
def Fs.walk (fs : Fs) (dir : Path) : List (Path × List Char) :=
  fs.files.filter fun f => (fs.key dir).isPrefixOf (fs.key f.1.dropLast)

/-- the last component of a path (`filename` in the loops over `os.walk`) -/
def baseName (p : Path) : List Char := p.getLastD []

/-- Assignment of contents to a path; a new file comes last. -/
def Fs.put (fs : Fs) (p : Path) (c : List Char) : Fs :=
  if fs.isFile p then { fs with files := fs.files.map fun f => if fs.key f.1 = fs.key p then (f.1, c) else f }
  else { fs with files := fs.files ++ [(p, c)] }

/-- The operations of `write_sympy_parseable_examples` on the file system. -/
inductive Step
  /-- `os.makedirs`, `examples_parser.py:31-35` -/
  | makedirs (d : Path)
  /-- `open(…, 'wb')`, `examples_parser.py:39` -/
  | create (p : Path)
  /-- `pickle.dump`, `examples_parser.py:40` -/
  | dump (p : Path) (l : Examples)

/-- One operation. `os.makedirs` on something that exists raises `EEXIST`, which is ignored; a file in the place of a parent
raises. `open` raises if the directory does not exist, or if the path is a directory. -/
def Fs.step (P : Pickle) (fs : Fs) : Step → Except Err Fs
  | .makedirs d =>
    if fs.isDir d || fs.isFile d then .ok fs
    else if d.inits.any fs.isFile then .error .osError
    else .ok { fs with dirs := fs.dirs ++ d.inits.filter fun q => !fs.isDir q }
  | .create p => if fs.isDir p.dropLast && !fs.isDir p then .ok (fs.put p []) else .error .osError
  | .dump p l => .ok (fs.put p (P.dump l))

/-- Operations one after the other up to the first exception: the final state, and the exception. -/
def Fs.run (P : Pickle) : Fs → List Step → Fs × Except Err Unit
  | fs, [] => (fs, .ok ())
  | fs, s :: l =>
    match fs.step P s with
    | .error e => (fs, .error e)
    | .ok fs' => fs'.run P l

/-- `os.path.join('..', 'GRF', 'Examples', 'MetiTarski')` (`examples_parser.py:168-169`) -/
def sourceDir : Path := ["..".toList, "GRF".toList, "Examples".toList, "MetiTarski".toList]

/-- `os.path.join('Examples', 'MetiTarski')` (`examples_parser.py:93-94,130-131`) -/
def readMetDir : Path := ["Examples".toList, "MetiTarski".toList]

/-- `os.path.join('Examples', 'HidingProblems')` (`examples_parser.py:95,132`) -/
def readHidDir : Path := ["Examples".toList, "HidingProblems".toList]

/-- `os.path.join('Examples', dir)` (`examples_parser.py:32`) for the only key `dir` of the dictionary made by
`parse_example_dirs` (`examples_parser.py:174-177`). -/
def writeDir : Path := ["Examples".toList, "Metitarski".toList]

/-- `file + '.pkl'` -/
def pklName (n : List Char) : List Char := n ++ ".pkl".toList

/-- The operations of `write_sympy_parseable_examples` (`examples_parser.py:30-40`) for the examples of a dictionary. -/
def writeSteps (ex : List (List Char × Examples)) : List Step :=
  .makedirs writeDir ::
    ex.flatMap fun f => [.create (writeDir ++ [pklName f.1]), .dump (writeDir ++ [pklName f.1]) f.2]

/-- `examples_preformat_uni()` (`examples_parser.py:44-69`, `parse_example_dirs` `157-178`): the dictionary for the only
directory. The parser starts in the given state. -/
def SympyEnv.preformatDir (S : SympyEnv) (st : PSt) (fs : Fs) : Except Err (List (List Char × Examples)) := do
  let r ← parseFiles st ((fs.walk sourceDir).map fun f => (baseName f.1, f.2)) []
  S.preformatUni r.2

/-- `write_sympy_parseable_examples()` (`examples_parser.py:24-41`): all examples are read and converted before the first
operation. -/
def SympyEnv.write (S : SympyEnv) (P : Pickle) (st : PSt) (fs : Fs) : Fs × Except Err Unit :=
  match S.preformatDir st fs with
  | .error e => (fs, .error e)
  | .ok ex => fs.run P (writeSteps ex)

/-- The states in which a crash of `write_sympy_parseable_examples` can leave the file system: `k` operations were done,
and the first `m` characters of the contents if a file was being written. -/
def SympyEnv.crash (S : SympyEnv) (P : Pickle) (st : PSt) (fs : Fs) (k m : ℕ) : Fs :=
  match S.preformatDir st fs with
  | .error _ => fs
  | .ok ex =>
    let r := fs.run P ((writeSteps ex).take k)
    match r.2, (writeSteps ex)[k]? with
    | .ok _, some (.dump p l) => r.1.put p ((P.dump l).take m)
    | _, _ => r.1

/-- `unpickle_from_dir` (`examples_parser.py:141-156`) -/
def unpickleFromDir (P : Pickle) (fs : Fs) (dir : Path) : Except Err (List (List Char × Examples)) :=
  (fs.walk dir).foldlM (fun ret f => do
    let c ← P.load f.2
    return dictSet ret (baseName f.1) c) []

/-- `unpickle_dirs()` (`examples_parser.py:119-139`) -/
def unpickleDirs (P : Pickle) (fs : Fs) : Except Err (List (List Char × List (List Char × Examples))) := do
  let met ← unpickleFromDir P fs readMetDir
  let hid ← unpickleFromDir P fs readHidDir
  return [("Metitarski".toList, met), ("HidingProblems".toList, hid)]

/-- `unpickle_dirs_gen()` (`examples_parser.py:91-117`): the contents of the files that will be loaded, one by one when
they are asked for. -/
def unpickleGen (fs : Fs) : List (List Char) := ((fs.walk readMetDir) ++ (fs.walk readHidDir)).map Prod.snd

/-- The loop over the files in `check_examples` (`checker.py:13-60`), from file number `i` on: a file is loaded before its
number is tested. -/
def checkFiles (P : Pickle) (solver : List SPoly → List SPoly → List SPoly → List SPoly → Except Err Bool) :
    ℕ → List (List Char) → List (ResultKey × Bool) → Except Err (List (ResultKey × Bool))
  | _, [], res => .ok res
  | i, c :: cs, res => do
    let exs ← P.load c
    if i > 2 then .ok res
    else do
      let res' ← exs.foldlM (fun res ex => do
        let v ← checkExample solver ex.1 ex.2
        .ok (if v then res else dictSet res .builtinFile v)) res
      checkFiles P solver (i + 1) cs res'

/-- `check_examples()` (`checker.py:8-65`) on a file system: what the last loop prints. -/
def checkStored (P : Pickle) (solver : List SPoly → List SPoly → List SPoly → List SPoly → Except Err Bool) (fs : Fs) :
    Except Err (List (String × Bool)) := do
  let results ← checkFiles P solver 0 (unpickleGen fs) []
  results.mapM fun kv => do
    let s ← dropSuffix kv.1
    .ok (s, kv.2)

end Verif.Vts

import Verif.Model.Basic
/-
The mount table and the names of files (apl/io/mount.go, apl/io/fs.go).
Simplifications: names are lists of characters; a file system is a value of an arbitrary type.  All operations hold the lock of the table while
they use it (`mtab.Lock`), so every schedule of several interpreters is a sequence of these operations.
-/
namespace Iv
variable {F : Type}

/-- apl/io/fs.go:87-90 `mpoint` -/
structure MPoint (F : Type) where
  mpt : List Char
  src : F

/-- `strings.HasPrefix` -/
def hasPrefix : (s pre : List Char) → Bool
  | _, [] => true
  | c :: s, p :: pre => if c = p then hasPrefix s pre else false
  | [], _ :: _ => false

/-- `strings.HasSuffix` -/
def hasSuffix (s suf : List Char) : Bool := hasPrefix s.reverse suf.reverse

/-- `strings.TrimPrefix` -/
def trimPrefix (s pre : List Char) : List Char := if hasPrefix s pre then s.drop pre.length else s

/-- apl/io/fs.go:167-173: is the mount point in use -/
def mpointUsed (mpt : List Char) : List (MPoint F) → Bool
  | [] => false
  | t :: ts => if t.mpt = mpt then true else mpointUsed mpt ts

/-- apl/io/fs.go:165-183 `Mount` -/
def mountFs (tab : List (MPoint F)) (mpt : List Char) (fs : F) : Res (List (MPoint F)) :=
  if hasPrefix mpt ['/'] = false then .error .err
  else if hasSuffix mpt ['/'] = false then .error .err
  else if mpointUsed mpt tab then .error .err
  else .ok (tab ++ [⟨mpt, fs⟩])

/-- apl/io/fs.go:187-192: the position of the mount point; the last one is taken -/
def mpointIndex (mpt : List Char) : (i : Nat) → List (MPoint F) → (n : Option Nat) → Option Nat
  | _, [], n => n
  | i, t :: ts, n => mpointIndex mpt (i + 1) ts (if t.mpt = mpt then some i else n)

/-- apl/io/fs.go:186-200 `Umount` -/
def umountFs (tab : List (MPoint F)) (mpt : List Char) : List (MPoint F) :=
  match mpointIndex mpt 0 tab none with
  | none => tab
  | some n => tab.take n ++ tab.drop (n + 1)

/-- apl/io/fs.go:149-154 the loop of `lookup` and of `Create`: from the last to the first -/
def lookupLoop (name : List Char) (tab : List (MPoint F)) : (n : Nat) → Option (MPoint F)
  | 0 => none
  | n + 1 => match tab[n]? with
    | none => none
    | some t => if hasPrefix name t.mpt then some t else lookupLoop name tab n

/-- apl/io/fs.go:141-162 `lookup` -/
def lookupFs (tab : List (MPoint F)) (name : List Char) : Res (F × List Char) :=
  if tab.length = 0 then .error .err
  else match lookupLoop name tab tab.length with
    | some t => .ok (t.src, t.mpt)
    | none => .error .err

/-- apl/io/fs.go:93-100 `Open`: the file system that is asked, with the name that it gets and the mount point -/
def openFs (tab : List (MPoint F)) (name : List Char) : Res (F × List Char × List Char) :=
  match lookupFs tab name with
  | .error e => .error e
  | .ok (fs, mpt) => .ok (fs, trimPrefix name mpt, mpt)

/-- apl/io/fs.go:103-137 `Create`; `writable` is the test for the interface -/
def createFs (writable : F → Bool) (tab : List (MPoint F)) (name : List Char) : Res (F × List Char) :=
  if tab.length = 0 then .error .err
  else match lookupLoop name tab tab.length with
    | none => .error .err
    | some t => if writable t.src then .ok (t.src, trimPrefix name t.mpt) else .error .err

/-- apl/io/mount.go:50-62: the loop over the registered protocols, in any order; `connect` is the method `FileSystem` -/
def protocolFs (src : List Char) : List (List Char × (List Char → Res F)) → Option (Res F)
  | [] => none
  | (name, connect) :: ps =>
    if hasPrefix src (name ++ [':', '/', '/']) then some (connect (trimPrefix src (name ++ [':', '/', '/']))) else protocolFs src ps

/-- apl/io/mount.go:49-86 `mount` with both arguments.  `dot` is the current directory, `dir` gives the file system of a directory of the
operating system or an error. -/
def mountCall (protocols : List (List Char × (List Char → Res F))) (dot : F) (dir : List Char → Res F) (tab : List (MPoint F)) (mpt src : List Char) :
    Res (List (MPoint F)) :=
  match protocolFs src protocols with
  | some (.error e) => .error e
  | some (.ok fs) => mountFs tab mpt fs
  | none =>
    if src = ['.'] then mountFs tab mpt dot
    else match dir src with
      | .error e => .error e
      | .ok fs => mountFs tab mpt fs

/-- An operation on the table: apl/io/mount.go:21 and 90. -/
inductive MountOp (F : Type)
  | mount (mpt : List Char) (fs : F)
  | umount (mpt : List Char)

/-- the table after an operation; it is left as it is if the mount fails -/
def applyMount (tab : List (MPoint F)) : MountOp F → List (MPoint F)
  | .mount mpt fs => match mountFs tab mpt fs with
    | .ok t => t
    | .error _ => tab
  | .umount mpt => umountFs tab mpt

/-- the table after a history -/
def mountTable (ops : List (MountOp F)) : List (MPoint F) := ops.foldl applyMount []

/-- the parts of a text between slashes (Go's `strings.Split(s, "/")`) -/
def splitSlash : List Char → List (List Char)
  | [] => [[]]
  | c :: cs => if c = '/' then [] :: splitSlash cs else (c :: (splitSlash cs).headD []) :: (splitSlash cs).tail

/-- One step of Go's `filepath.Clean` on the parts of a path: empty parts and "." are left out, ".." removes the part before; at the root it is
left out, and it is kept where nothing can be removed. -/
def cleanStep (rooted : Bool) (acc : List (List Char)) (part : List Char) : List (List Char) :=
  if part = [] ∨ part = ['.'] then acc
  else if part = ['.', '.'] then
    (match acc.getLast? with
    | none => if rooted then [] else [part]
    | some p => if p = ['.', '.'] then acc ++ [part] else acc.dropLast)
  else acc ++ [part]

/-- Go's `filepath.Clean` on the parts of a path (unix) -/
def cleanParts (rooted : Bool) (parts : List (List Char)) : List (List Char) := parts.foldl (cleanStep rooted) []

/-- apl/io/fs.go:76-78 `fs.path`: `filepath.Join` of the directory and the name: the clean parts of the joined text.  (An empty name gives the
clean directory.) -/
def osPath (root name : List Char) : Bool × List (List Char) :=
  (hasPrefix root ['/'], cleanParts (hasPrefix root ['/']) (splitSlash root ++ splitSlash name))

/-- apl/io/fs.go:63-69: the text for one entry of a directory -/
def listName (mpt name entry : List Char) (isDir : Bool) : List Char := mpt ++ name ++ entry ++ (if isDir then ['/'] else [])

end Iv

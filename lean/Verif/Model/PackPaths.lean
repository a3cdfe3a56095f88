import Verif.Model.PackPlace

/-!
# Paths in the packaging tool

Models the functions of `src/packagetool/utils.c` that go through directories (Linux parts) with the paths they
build, as strings in buffers of fixed size, and with the directories that are open at the same time.  Model/Pack has
the same functions on paths that are lists of names.

Not modelled: descriptors for files, which are counted nowhere; a library that contains the temporary directory.
-/

namespace Semla

/-- `LONG_FILE_NAME_MAX`, utils.h:27. -/
def packFileNameMax : Nat := 4096

/-- `d_type`. -/
inductive EntryType where
  | dir
  | file
  | other
  deriving DecidableEq, Repr

/-- What `opendir` and `readdir` deliver for a path; `none`: `opendir` fails.  The entries `.` and `..`, which all loops
skip, are left out. -/
abbrev ReadDir := Bytes → Option (List (Bytes × EntryType))

/-- The path of an entry in a buffer of `cap` bytes, utils.c:1993-1999 (also 1120-1126, 1527-1533).  The path of an
opened directory is not empty. -/
def entryPath (cap : Nat) (path name : Bytes) : Bytes :=
  snprintf cap (if path.getLast? = some 47 then path ++ name else path ++ b!"/" ++ name)

/-- Names in a path: `cur` is the beginning of the current one. -/
def namesFrom (cur : Bytes) : Bytes → List Bytes
  | [] => if cur = [] then [] else [cur]
  | c :: cs =>
    if c = 47 then (if cur = [] then namesFrom [] cs else cur :: namesFrom [] cs)
    else namesFrom (cur ++ [c]) cs

/-- The entry of the temporary directory `tmp` that the kernel finds at a path. -/
def stagedAt (tmp path : Bytes) : List Bytes := namesFrom [] (path.drop tmp.length)

/-! ## Copying -/

/-- The machine as `copyDirectoryLinux` sees it: directories to read, what `copyFile` writes for a file (`none`: it
fails before opening the copy), and whether there is an error making a directory, by its path. -/
structure CopyWorld where
  list : ReadDir
  copied : Bytes → Option Bytes
  mkdirOk : Bytes → Bool

/-- One entry in `copyDirectoryLinux`, utils.c:1989-2025; `below` is the recursive call, whose result is not used. -/
def copyEntry (w : CopyWorld) (tmp : Bytes) (below : Bytes → Bytes → Staged → Staged) (src dst : Bytes) (fs : Staged)
    (e : Bytes × EntryType) : Staged :=
  if e.1 = b!".library" then fs
  else
    let from_ := entryPath maxPathLength src e.1
    let to := snprintf maxPathLength (dst ++ b!"/" ++ e.1)
    match e.2 with
    | .dir => below from_ to (if w.mkdirOk to then (fs.mkdir (stagedAt tmp to)).getD fs else fs)
    | .file =>
      match w.copied from_ with
      | some c => (fs.write (stagedAt tmp to) c).getD fs
      | none => fs
    | .other => fs

/-- `copyDirectoryLinux`, utils.c:1964-2035, when `fds` more directories can be opened.  The directory stays open while
those in it are copied. -/
def copyTree (w : CopyWorld) (tmp : Bytes) : Nat → Bytes → Bytes → Staged → Staged
  | 0, _, _, fs => fs
  | fds + 1, src, dst, fs =>
    match w.list (snprintf maxPathLength src) with
    | none => fs
    | some es => es.foldl (copyEntry w tmp (copyTree w tmp fds) src dst) fs

/-- The result of the first call: `none` stands for 0. -/
def copyTreeTop (w : CopyWorld) (tmp : Bytes) (fds : Nat) (src dst : Bytes) (fs : Staged) : Option Staged :=
  if fds = 0 ∨ w.list (snprintf maxPathLength src) = none then none else some (copyTree w tmp fds src dst fs)

/-! ## The icon -/

/-- The loop of `findFileLinux`, utils.c:1114-1146: `pathToIcon` and the result.  `below` is the recursive call. -/
def findLoop (name path : Bytes) (below : Bytes → Option Bytes → Option Bytes) :
    List (Bytes × EntryType) → Option Bytes → Option Bytes × Bool
  | [], cur => (cur, false)
  | e :: es, cur =>
    match e.2 with
    | .dir => findLoop name path below es (below (entryPath maxPathLength path e.1) cur)
    | .file =>
      if e.1 = name then (cur.or (some (entryPath maxPathLength path e.1)), true)
      else findLoop name path below es cur
    | .other => findLoop name path below es cur

/-- `findFileLinux`, utils.c:1099-1154. -/
def findTree (list : ReadDir) (name : Bytes) : Nat → Bytes → Option Bytes → Option Bytes × Bool
  | 0, _, cur => (cur, false)
  | fds + 1, path, cur =>
    match list (snprintf maxPathLength path) with
    | none => (cur, false)
    | some es => findLoop name path (fun p c => (findTree list name fds p c).1) es cur

/-! ## Encryption -/

/-- The machine as `encryptDirectoryLinux` sees it: directories, whether `fopen(path, "rb")` works, and `encryptFile`
once its two paths are made: relative path, file to read, file to write. -/
structure EncWorld (σ : Type) where
  list : ReadDir
  opens : σ → Bytes → Bool
  encrypt : Bytes → Bytes → Bytes → σ → Res (σ × Bool)

/-- The paths in `encryptFile`, utils.c:1278-1284. -/
def encryptFileAt {σ : Type} (w : EncWorld σ) (top rel : Bytes) (s : σ) : Res (σ × Bool) :=
  let file := snprintf packFileNameMax (top ++ b!"/" ++ rel)
  w.encrypt rel file (snprintf packFileNameMax (file ++ b!"c")) s

/-- A loop that ends with the first entry that fails, utils.c:1054-1083.  (The one behind it is read, but not looked
at.) -/
def untilFails {σ : Type} (step : Bytes × EntryType → σ → Res (σ × Bool)) :
    List (Bytes × EntryType) → σ → Res (σ × Bool)
  | [], s => .ok (s, true)
  | e :: es, s => do
    let (s, ok) ← step e s
    if ok then untilFails step es s else .ok (s, false)

/-- `fullPath` in `encryptDirectoryLinux`, utils.c:1030-1033; `rel` is `none` for the library itself. -/
def encFull (top : Bytes) : Option Bytes → Bytes
  | none => snprintf (maxPathLength + 1) top
  | some r => snprintf (maxPathLength + 1) (top ++ b!"/" ++ r)

/-- The relative path of an entry, utils.c:1040-1048, 1056-1063. -/
def encRel (rel : Option Bytes) (name : Bytes) : Bytes :=
  match rel with
  | none => snprintf (maxPathLength + 1) name
  | some r => snprintf (maxPathLength + 1) (r ++ b!"/" ++ name)

/-- The package file of a directory, utils.c:1035-1051. -/
def encHere {σ : Type} (w : EncWorld σ) (top : Bytes) (rel : Option Bytes) (s : σ) : Res (σ × Bool) :=
  if w.opens s (snprintf (maxPathLength + 1) (encFull top rel ++ b!"/package.mo")) then
    encryptFileAt w top (encRel rel b!"package.mo") s
  else .ok (s, true)

/-- `encryptDirectoryLinux`, utils.c:1009-1094. -/
def encTree {σ : Type} (w : EncWorld σ) (top : Bytes) : Nat → Option Bytes → σ → Res (σ × Bool)
  | 0, rel, s => do
    let (s, _) ← encHere w top rel s
    .ok (s, false)
  | fds + 1, rel, s => do
    let (s, ok) ← encHere w top rel s
    if ok then
      match w.list (encFull top rel) with
      | none => .ok (s, false)
      | some es => untilFails (fun (e : Bytes × EntryType) s =>
          if eqNoCase e.1 b!"package.mo" then .ok (s, true)
          else
            match e.2 with
            | .dir => encTree w top fds (some (encRel rel e.1)) s
            | .file => if isModelicaFile e.1 then encryptFileAt w top (encRel rel e.1) s else .ok (s, true)
            | .other => .ok (s, true)) es s
    else .ok (s, false)

/-! ## The archive -/

/-- The loop of `zipDirectoryLinux`, utils.c:1521-1574, with the recursive call and `addFileToZipArchive`. -/
def zipLoop (encrypted : Bool) (tmp path : Bytes) (below : Bytes → List (Bytes × Bytes) × Bool)
    (add : Bytes → Bytes → Option Bytes) : List (Bytes × EntryType) → List (Bytes × Bytes) × Bool
  | [] => ([], true)
  | e :: es =>
    let search := entryPath (maxPathLength + 1) path e.1
    match e.2 with
    | .dir =>
      let (a, ok) := below search
      if ok then
        let (b, ok) := zipLoop encrypted tmp path below add es
        (a ++ b, ok)
      else (a, false)
    | .file =>
      if ¬ encrypted ∨ ¬ isModelicaFile e.1 then
        let name := snprintf maxPathLength (search.drop (tmp.length + 1))
        match add name search with
        | some c =>
          let (a, ok) := zipLoop encrypted tmp path below add es
          ((name, c) :: a, ok)
        | none => ([], false)
      else zipLoop encrypted tmp path below add es
    | .other => zipLoop encrypted tmp path below add es

/-- `zipDirectoryLinux`, utils.c:1503-1582, with `removeTmpFolderName`, utils.c:1656-1674: names in the archive and
contents of the files added, and the result.  `add name path` is what `addFileToZipArchive` adds. -/
def zipTree (list : ReadDir) (add : Bytes → Bytes → Option Bytes) (encrypted : Bool) (tmp : Bytes) :
    Nat → Bytes → List (Bytes × Bytes) × Bool
  | 0, _ => ([], false)
  | fds + 1, path =>
    match list (snprintf (maxPathLength + 1) path) with
    | none => ([], false)
    | some es => zipLoop encrypted tmp path (zipTree list add encrypted tmp fds) add es

end Semla

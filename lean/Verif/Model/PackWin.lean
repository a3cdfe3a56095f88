import Verif.Model.Pack

/-!
# The packaging tool on Windows

Models the branches of `src/packagetool/utils.c` and `arguments.c` compiled for Windows (`#ifdef WIN32`)
that differ from those of `Verif/Model/Pack.lean`, and `doWork` with them.

The staging directory is the one of `Verif/Model/Pack.lean`, but names are compared without regard to
letter case (of ASCII letters), as Windows file systems do.  Not modelled, besides what is left out there:
`_snprintf` returning -1, names of temporary directories that exist already, and the bytes of the archive
(`Verif/Model/MolFile.lean`).
-/

namespace Semla

/-- Are these the same path for Windows? -/
def samePath : List Bytes → List Bytes → Bool
  | [], [] => true
  | a :: p, b :: q => eqNoCase a b && samePath p q
  | _, _ => false

namespace Staged

/-- What Windows finds at a path. -/
def wget (fs : Staged) (p : List Bytes) : Option Node := (fs.find? (samePath ·.1 p)).map (·.2)

/-- The path as it is spelled in the directory, if there is something there. -/
def spelled (fs : Staged) (p : List Bytes) : List Bytes :=
  ((fs.find? (samePath ·.1 p)).map (·.1)).getD p

/-- `fopen(path, "wb")`, `fwrite`, `fclose`; `none`: `fopen` fails. -/
def wwrite (fs : Staged) (p : List Bytes) (c : Bytes) : Option Staged :=
  if p ≠ [] ∧ fs.wget p.dropLast = some .dir ∧ fs.wget p ≠ some .dir then
    some (fs.set (fs.spelled p) (.file c))
  else none

/-- `_mkdir(path)`; `none`: it fails. -/
def wmkdir (fs : Staged) (p : List Bytes) : Option Staged :=
  if p ≠ [] ∧ fs.wget p.dropLast = some .dir ∧ fs.wget p = none then some (fs.set p .dir) else none

end Staged

/-- How reading a file to be copied goes, utils.c:1913-1933. -/
inductive Fetched where
  /-- opened; this is what `fread` leaves in the buffer of `st_size` bytes -/
  | data (c : Bytes)
  /-- `stat` fails -/
  | noStat
  /-- `stat` works, `fopen` does not -/
  | noOpen
  deriving DecidableEq, Repr

/-- What a run on Windows depends on.  Fields of `PackEnv` have their meaning for the Windows functions
called at the same places (`tempDir`: `GetTempPathA` and `_mktemp`, `tmpVar`: the environment variable
`TEMP`, `mkdirOk []`: `_mkdir` of the temporary directory); `copied` of both sources, `zipOpens` and
`zipCloses` are not used. -/
structure PackWinEnv where
  env : PackEnv
  /-- files of the library and of the directory `.library` beside the executable -/
  fetch : List Bytes → Fetched
  fetchExtra : List Bytes → Fetched

/-! ## Copying -/

/-- The loop of `copyDirectoryWin32`, utils.c:1884-1950.  Only the return value of the outermost call is
used; `fread` and `fwrite` on a null `FILE` are undefined. -/
def copyEntriesWin (fetch : List Bytes → Fetched) (mkdirOk : List Bytes → Bool) :
    Listing → List Bytes → List Bytes → Staged → Res (Staged × Bool)
  | .done, _, _, fs => .ok (fs, true)
  | .file n rest, src, dst, fs =>
    if n = b!".library" then copyEntriesWin fetch mkdirOk rest src dst fs
    else
      match fetch (src ++ [n]) with
      | .noStat => .ok (fs, false)
      | .noOpen => .ub .nullDeref
      | .data c =>
        match fs.wwrite (dst ++ [n]) c with
        | none => .ub .nullDeref
        | some fs => copyEntriesWin fetch mkdirOk rest src dst fs
  | .dir n sub rest, src, dst, fs =>
    if n = b!".library" then copyEntriesWin fetch mkdirOk rest src dst fs
    else do
      let fs := if mkdirOk (src ++ [n]) then (fs.wmkdir (dst ++ [n])).getD fs else fs
      let (fs, _) ← copyEntriesWin fetch mkdirOk sub (src ++ [n]) (dst ++ [n]) fs
      copyEntriesWin fetch mkdirOk rest src dst fs
  | .locked n rest, src, dst, fs =>
    if n = b!".library" then copyEntriesWin fetch mkdirOk rest src dst fs
    else
      let fs := if mkdirOk (src ++ [n]) then (fs.wmkdir (dst ++ [n])).getD fs else fs
      copyEntriesWin fetch mkdirOk rest src dst fs
  | .other _ rest, src, dst, fs => copyEntriesWin fetch mkdirOk rest src dst fs

/-- `copyDirectoryWin32`, utils.c:1855-1957; `none` is the return value 0. -/
def copyDirectoryWin (fetch : List Bytes → Fetched) (mkdirOk : List Bytes → Bool) (l : Option Listing)
    (dst : List Bytes) (fs : Staged) : Res (Option Staged) :=
  match l with
  | none => .ok none
  | some l => do
    let (fs, ok) ← copyEntriesWin fetch mkdirOk l [] dst fs
    .ok (if ok then some fs else none)

/-- The part of a path behind the last `/` or `\`: `getLibraryName` (arguments.c:397-433) and
`extractFilename` (utils.c:1162-1190). -/
def afterLastSep (p : Bytes) : Bytes := (p.reverse.takeWhile (fun c => !isSep c)).reverse

/-- `copyFolderStructure`, utils.c:1818-1848, with `createStagingFolder`, utils.c:1758-1802. -/
def copyFolderStructureWin (w : PackWinEnv) (lib : Bytes) : Res (Option Staged) :=
  if ¬ w.env.mkdirOk [] ∨ lib ∈ [[], b!".", b!".."] ∨ ¬ w.env.mkdirOk [lib] then .ok none
  else
    match Staged.empty.wmkdir [lib] with
    | none => .ok none
    | some fs => copyDirectoryWin w.fetch w.env.librarySource.mkdirOk w.env.library [lib] fs

/-- `createLibraryFolder`, utils.c:409-440. -/
def createLibraryFolderWin (w : PackWinEnv) (lib : Bytes) (fs : Staged) : Option Staged :=
  if w.env.mkdirOk [lib, b!".library"] then fs.wmkdir [lib, b!".library"] else none

/-! ## The icon -/

/-- The loop of `findFileWin32`, utils.c:872-903: the new value of `pathToIcon`.  The result is always 1
unless the directory cannot be opened, so the search ends with the first directory that can. -/
def findFileWin (name : Bytes) : Listing → List Bytes → Option (List Bytes) → Option (List Bytes)
  | .done, _, cur => cur
  | .file n rest, dir, cur => findFileWin name rest dir (if n = name then some (dir ++ [n]) else cur)
  | .dir n sub _, dir, cur => findFileWin name sub (dir ++ [n]) cur
  | .locked _ rest, dir, cur => findFileWin name rest dir cur
  | .other _ rest, dir, cur => findFileWin name rest dir cur

/-- `locateIconFile`, utils.c:662-693. -/
def locateIconFileWin (w : PackWinEnv) (lib : Bytes) (fs : Staged) (value : Bytes) : Option (List Bytes) :=
  match w.env.iconWalk fs with
  | none => none
  | some l => findFileWin (afterLastSep value) l [lib] none

/-- Path of a file, with `\` between the names. -/
def joinWin : List Bytes → Bytes
  | [] => []
  | [n] => n
  | n :: m :: ns => n ++ b!"\\" ++ joinWin (m :: ns)

/-- Every `\` made a `/`. -/
def slashes (s : Bytes) : Bytes := s.map fun c => if c = 92 then 47 else c

/-- `cleanUpIconPath`, utils.c:1587-1650. -/
def cleanUpIconPathWin (tempVar : Option Bytes) (path : Bytes) : Res (Option Bytes) :=
  match tempVar with
  | none => .ub .nullDeref
  | some t =>
    if path.length < t.length + 1 then .ub .oobRead
    else
      let rest := path.drop (t.length + 1)
      if rest = [] then .ok none
      else if 92 ∉ rest then .ub .nullDeref
      else
        let rest := slashes ((rest.dropWhile (· ≠ 92)).drop 1)
        .ok (if rest = [] then none else some rest)

/-- `prepareIconFile`, utils.c:638-657. -/
def prepareIconFileWin (w : PackWinEnv) (d : ArgData) (tempDir lib : Bytes) (fs : Staged) :
    Res (Option (Option Bytes)) :=
  match getValueOf d b!"icon" with
  | none => .ok (some none)
  | some value =>
    match locateIconFileWin w lib fs value with
    | none => .ok none
    | some p => do
      let r ← cleanUpIconPathWin w.env.tmpVar (tempDir ++ b!"\\" ++ joinWin p)
      .ok (r.map some)

/-! ## Vendor executables, extra files, manifest -/

/-- The loop of `copyLVE`, utils.c:527-546. -/
def copyLvesWin (env : PackEnv) (lib : Bytes) : List Bytes → Staged → Option (Staged × List Bytes)
  | [], fs => some (fs, [])
  | n :: ns, fs =>
    if env.lve n then
      match env.lveCopied n with
      | (some c, true) =>
        match fs.wwrite [lib, b!".library", n] c with
        | none => none
        | some fs => (copyLvesWin env lib ns fs).map fun r => (r.1, n :: r.2)
      | _ => none
    else copyLvesWin env lib ns fs

/-- `copyLVE`, utils.c:501-551. -/
def copyLVEWin (env : PackEnv) (d : ArgData) (lib : Bytes) (fs : Staged) : Option (Staged × List Bytes) :=
  if usingEncryption d then
    if env.exeDir then copyLvesWin env lib lveNames fs else none
  else some (fs, [])

/-- `copyExtraFiles`, utils.c:557-599. -/
def copyExtraFilesWin (w : PackWinEnv) (lib : Bytes) (fs : Staged) : Res (Option Staged) :=
  if w.env.exeDir then
    match w.env.extra with
    | none => .ok (some fs)
    | some l => copyDirectoryWin w.fetchExtra w.env.extraSource.mkdirOk l [lib, b!".library"] fs
  else .ok none

/-- What a stream opened with `fopen(path, "w")` writes for a text: `\r\n` for `\n`. -/
def textOut (s : Bytes) : Bytes := s.flatMap fun c => if c = 10 then [13, 10] else [c]

/-- What is read through a stream opened with `fopen(path, "r")`: the bytes before the first 0x1A, with
`\n` for `\r\n`. -/
def textIn : Bytes → Bytes
  | [] => []
  | c :: s =>
    if c = 26 then []
    else if c = 13 ∧ s.head? = some 10 then textIn s
    else c :: textIn s

/-- `createManifestFile`, manifest.c:181-205, with text streams (also manifest.c:450). -/
def writeManifestWin (env : PackEnv) (d : ArgData) (lib : Bytes) (lves : List Bytes) (icon : Option Bytes)
    (fs : Staged) : Res Staged :=
  let path := [lib, b!".library", b!"manifest.xml"]
  match (if env.canWrite path then fs.wwrite path [] else none) with
  | none => .ub .nullDeref
  | some fs => do
    let doc ← createManifest d lib lves icon fun p => (env.readFile p).map textIn
    .ok (fs.set (fs.spelled path) (.file (textOut doc)))

/-! ## Encryption -/

/-- `fopen(path, "rb")`: fails for directories. -/
def PackEnv.openReadWin (env : PackEnv) (fs : Staged) (p : List Bytes) : Option (Bytes × Bool) :=
  if env.canRead p then
    match fs.wget p with
    | some (.file c) => some (c, env.readError p)
    | _ => none
  else none

/-- The context of `encryptDirectoryWin32`. -/
def PackEnv.contextWin (env : PackEnv) (tempDir lib : Bytes) : CrEnv :=
  ⟨env.C, env.key, env.keyLen, tempDir ++ b!"\\" ++ lib, fun _ => none⟩

/-- `encryptFile`, utils.c:1273-1307, called with a path in which names are separated by `\`. -/
def encryptOneWin (env : PackEnv) (e : CrEnv) (lib : Bytes) (p : List Bytes) (s : EncState) :
    Res (EncState × Bool) :=
  match env.openReadWin s.fs (lib :: p) with
  | none => .ub .nullDeref
  | some (content, bad) =>
    let out := lib :: encryptedPath p
    match (if env.canWrite out then s.fs.wwrite out [] else none) with
    | none => .ub .nullDeref
    | some _ => do
      let (t, bytes, ok) ← crEncrypt e s.table (joinWin p) (env.iv p) (fun _ => env.mask p) content bad
        (env.writeOk p)
      .ok (⟨t, s.fs.set (s.fs.spelled out) (.file bytes), s.log ++ [p]⟩, ok)

/-- `package.mo` of a directory, utils.c:950-964. -/
def encryptPackageWin (env : PackEnv) (e : CrEnv) (lib : Bytes) (dir : List Bytes) (s : EncState) :
    Res (EncState × Bool) :=
  match env.openReadWin s.fs (lib :: dir ++ [b!"package.mo"]) with
  | none => .ok (s, true)
  | some _ => encryptOneWin env e lib (dir ++ [b!"package.mo"]) s

/-- The loop of `encryptDirectoryWin32`, utils.c:965-996.  A directory that cannot be opened ends the
encryption before its `package.mo` is tried (utils.c:945-948). -/
def encryptEntriesWin (env : PackEnv) (e : CrEnv) (lib : Bytes) :
    Listing → List Bytes → EncState → Res (EncState × Bool)
  | .done, _, s => .ok (s, true)
  | .file n rest, dir, s =>
    if eqNoCase n b!"package.mo" then encryptEntriesWin env e lib rest dir s
    else if isModelicaFile n then do
      let (s, ok) ← encryptOneWin env e lib (dir ++ [n]) s
      if ok then encryptEntriesWin env e lib rest dir s else .ok (s, false)
    else encryptEntriesWin env e lib rest dir s
  | .dir n sub rest, dir, s =>
    if eqNoCase n b!"package.mo" then encryptEntriesWin env e lib rest dir s
    else do
      let (s, ok) ← encryptPackageWin env e lib (dir ++ [n]) s
      if ok then do
        let (s, ok) ← encryptEntriesWin env e lib sub (dir ++ [n]) s
        if ok then encryptEntriesWin env e lib rest dir s else .ok (s, false)
      else .ok (s, false)
  | .locked n rest, dir, s =>
    if eqNoCase n b!"package.mo" then encryptEntriesWin env e lib rest dir s else .ok (s, false)
  | .other _ rest, dir, s => encryptEntriesWin env e lib rest dir s

/-- `encryptDirectoryWin32`, utils.c:912-1003, for the library. -/
def encryptDirectoryWin (env : PackEnv) (e : CrEnv) (lib : Bytes) (fs : Staged) :
    Res (EncState × Bool) :=
  match env.encryptWalk fs with
  | none => .ok (⟨[], fs, []⟩, false)
  | some l => do
    let (s, ok) ← encryptPackageWin env e lib [] ⟨[], fs, []⟩
    if ok then encryptEntriesWin env e lib l [] s else .ok (s, false)

/-- `encryptFiles`, utils.c:1312-1325. -/
def encryptFilesWin (env : PackEnv) (d : ArgData) (tempDir lib : Bytes) (fs : Staged) :
    Res (Option Staged) :=
  if usingEncryption d then do
    let (s, ok) ← encryptDirectoryWin env (env.contextWin tempDir lib) lib fs
    .ok (if ok then some s.fs else none)
  else .ok (some fs)

/-! ## The archive -/

/-- The loop of `zipDirectoryWin32`, utils.c:1403-1490, over the entries of `dir`, with `result` being
`res`: what is added, and the return value.  A directory to which nothing is added leaves `result` 0. -/
def zipEntriesWin (env : PackEnv) (encrypted : Bool) (fs : Staged) :
    Listing → List Bytes → Bool → Res (Archive × Bool)
  | .done, _, res => .ok ([], res)
  | .file n rest, dir, res =>
    if ¬ encrypted ∨ ¬ isModelicaFile n then
      match fs.wget (dir ++ [n]) with
      | none => .ok ([], false)
      | some .dir => .ub .nullDeref
      | some (.file c) =>
        if ¬ env.canRead (dir ++ [n]) then .ub .nullDeref
        else if env.zipAdds (dir ++ [n]) then do
          let (a, ok) ← zipEntriesWin env encrypted fs rest dir true
          .ok ((dir ++ [n], c) :: a, ok)
        else .ok ([], false)
    else zipEntriesWin env encrypted fs rest dir res
  | .dir n sub rest, dir, _ => do
    let (a, ok) ← zipEntriesWin env encrypted fs sub (dir ++ [n]) false
    if ok then do
      let (b, ok) ← zipEntriesWin env encrypted fs rest dir true
      .ok (a ++ b, ok)
    else .ok (a, false)
  | .locked _ _, _, _ => .ok ([], false)
  | .other _ rest, dir, res => zipEntriesWin env encrypted fs rest dir res

/-- `createZipArchive`, utils.c:1330-1374, on Windows: every file is added to the archive on disk at once,
so there is one if a file was added. -/
def createZipArchiveWin (env : PackEnv) (d : ArgData) (fs : Staged) : Res (Option Archive × Bool) :=
  match env.zipWalk fs with
  | none => .ok (none, false)
  | some l => do
    let (a, ok) ← zipEntriesWin env (usingEncryption d) fs l [] false
    .ok (if a = [] then none else some a, ok)

/-! ## All of it -/

/-- `doWork` from packagetool.c:96 on. -/
def packLibraryWin (w : PackWinEnv) (d : ArgData) : Res PackResult :=
  match w.env.tempDir with
  | none => .ok ⟨2, none⟩
  | some tempDir => do
    let lib := afterLastSep ((getValueOf d b!"librarypath").getD [])
    match ← copyFolderStructureWin w lib with
    | none => .ok ⟨2, none⟩
    | some fs =>
      match createLibraryFolderWin w lib fs with
      | none => .ok ⟨3, none⟩
      | some fs => do
        match ← prepareIconFileWin w d tempDir lib fs with
        | none => .ok ⟨4, none⟩
        | some icon =>
          match copyLVEWin w.env d lib fs with
          | none => .ok ⟨5, none⟩
          | some (fs, lves) => do
            match ← copyExtraFilesWin w lib fs with
            | none => .ok ⟨6, none⟩
            | some fs => do
              let fs ← writeManifestWin w.env d lib lves icon fs
              match ← encryptFilesWin w.env d tempDir lib fs with
              | none => .ok ⟨8, none⟩
              | some fs => do
                let (archive, ok) ← createZipArchiveWin w.env d fs
                .ok ⟨if ok then 0 else 9, archive⟩

/-- `doWork`, packagetool.c:48-143, and `main`, packagetool.c:153-158. -/
def packToolWin (w : PackWinEnv) (args : List Bytes) : Res PackResult :=
  if args = [] then .ok ⟨1, none⟩
  else if helpRequested args then .ok ⟨0, none⟩
  else do
    match ← packArguments w.env args with
    | none => .ok ⟨1, none⟩
    | some d => packLibraryWin w d

end Semla

import Verif.Model.Embed
import Verif.Model.Lve

/-!
# The build tools

Models `main` of `src/embedfile/obfuscate.c` and `src/embedfile/randomize_key.c`, the text that
`create_header_file` (`src/embedfile/obfuscate_utils.c:68-99`) writes, and the comparison of the tool's key with the
embedded keys (`src/lve/mlle_lve_pubkey.c:62-90`, with the macros `src/GenPublicKeyToolH.cmake` generates: they treat
the keys in the order of `public_key_tools.txt`).

Sizes are below 2^31 (`%d` and `%u` are given a `size_t`).  For the text of `public_key_tool.h` see
Model/KeyList.
-/

namespace Semla

/-- The assignments written by `write_initialize_key_macro_body`, obfuscator.c:21-32 (dummy), from index `i` on. -/
def initText (name : Bytes) : Nat → Bytes → Bytes
  | _, [] => []
  | i, b :: bs => name ++ b!"[" ++ decNat i ++ b!"] = '\\x" ++ hexByte b ++ b!"'; " ++ initText name (i + 1) bs

/-- The text of the header, obfuscate_utils.c:74-96. -/
def headerText (name data : Bytes) : Bytes :=
  let len := data.length
  let (j, d) := stripLoop len 0 0 data
  let d := if j < len then d.set j 0 else d
  b!"#define DECLARE_" ++ name ++ b!"() unsigned char " ++ name ++ b!"[" ++ decNat (len + 1) ++ b!"]\n" ++
  b!"#define " ++ name ++ b!"_LEN (" ++ decNat j ++ b!")\n" ++
  b!"#define INITIALIZE_" ++ name ++ b!"() do { " ++ initText name 0 d ++
  name ++ b!"[" ++ decNat len ++ b!"] = '\\0'; } while (0)\n" ++
  b!"#define CLEAR_" ++ name ++ b!"() memset(" ++ name ++ b!", 0, " ++ name ++ b!"_LEN)\n"

/-- What the build tools depend on. -/
structure BuildEnv where
  /-- size of a file (`none`: `stat` fails) -/
  stat : Bytes → Option Nat
  calloc : Nat → Bool
  /-- what can be read from a file (`none`: it cannot be opened) -/
  content : Bytes → Option Bytes
  /-- `fopen(path, "wb")` works -/
  canWrite : Bytes → Bool
  /-- how many bytes of the output get to the disk (`none`: all) -/
  kept : Option Nat
  /-- `RAND_bytes` (`none`: it fails) -/
  random : Option Bytes

/-- How a build tool ends: exit status, and what is in the output file if it was opened. -/
structure BuildResult where
  code : Nat
  output : Option Bytes
  deriving DecidableEq, Repr

/-- `create_header_file`, obfuscate_utils.c:68-99, and `return 0` behind it.  The results of `fprintf` and `fclose`
are not looked at. -/
def createHeaderFile (env : BuildEnv) (name data out : Bytes) : BuildResult :=
  if ¬ env.canWrite out then ⟨1, none⟩
  else ⟨0, some (match env.kept with
    | none => headerText name data
    | some n => (headerText name data).take n)⟩

/-- `read_file`, obfuscate.c:124-156 (`none`: `exit(1)`).  If `stat` fails, `%s` is given the first character of the
path. -/
def readKeyFile (env : BuildEnv) (file : Bytes) : Res (Option Bytes) :=
  match env.stat file with
  | none => .ub .oobRead
  | some n =>
    if ¬ env.calloc (n + 1) then .ok none
    else
      match env.content file with
      | none => .ok none
      | some c => .ok (if n = 0 ∨ c.length < n then none else some (c.take n))

/-- `main` of `obfuscate`, obfuscate.c:75-110. -/
def obfuscateMain (env : BuildEnv) : List Bytes → Res BuildResult
  | [out, file, name, type] =>
    if type ∈ [b!"TOOL_PUBLIC", b!"TOOL_PRIVATE", b!"LVE_PRIVATE"] then do
      match ← readKeyFile env file with
      | none => .ok ⟨1, none⟩
      | some data => .ok (createHeaderFile env name data out)
    else .ok ⟨1, none⟩
  | _ => .ok ⟨1, none⟩

/-- `MLLE_CR_KEY_LENGTH`, mlle_cr_crypt.h:41. -/
def crKeyLength : Nat := 32

/-- `main` of `randomize_key`, randomize_key.c:74-126.  The result of `calloc` is not looked at. -/
def randomizeMain (env : BuildEnv) : List Bytes → Res BuildResult
  | [out, name] =>
    if ¬ env.calloc crKeyLength then .ub .nullDeref
    else
      match env.random with
      | none => .ok ⟨1, none⟩
      | some draw => .ok (createHeaderFile env name (draw.take crKeyLength) out)
  | _ => .ok ⟨1, none⟩

/-- `validate`, mlle_lve_pubkey.c:62-90, on the initialised key arrays (`PUBLIC_KEY_TOOL[i]`). -/
def compareKeys (toolKey : Option Bytes) : List (List (Option UInt8)) → Res Bool
  | [] => .ok false
  | k :: ks =>
    match toolKey with
    | none => .ub .nullDeref
    | some t => do
      let k ← readCStr k
      if cstr t = k then .ok true else compareKeys toolKey ks

end Semla

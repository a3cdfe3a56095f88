import Verif.Model.BuildTools

/-!
# From the list of tool keys to the vendor executable

Models what `src/CMakeLists.txt:215-282` and `src/GenPublicKeyToolH.cmake` do with `public_key_tools.txt`, and the loop
of `validate` (`src/lve/mlle_lve_pubkey.c:62-90`) over the array that the generated `public_key_tool.h` declares.

The list is read when CMake configures the build; changing it later has no effect on the number of keys until CMake
runs again.  CMake itself is part of the trusted base: `file(STRINGS)` keeps empty lines and ignores carriage returns,
`list(LENGTH)` counts empty elements, and `foreach` over an unquoted variable leaves them out.  Lines are taken to
consist of letters, digits and `_-./`, so that neither CMake nor the shell gives one of their characters a meaning.
-/

namespace Semla

/-- `file(STRINGS)`, CMakeLists.txt:244: the lines of the list file.  Text behind the last newline is a line if it is
not empty. -/
def cmakeStrings : Bytes → Bytes → List Bytes
  | cur, [] => if cur = [] then [] else [cur]
  | cur, c :: cs =>
    if c = 13 then cmakeStrings cur cs
    else if c = 10 then cur :: cmakeStrings [] cs
    else cmakeStrings (cur ++ [c]) cs

/-- `list(LENGTH)`, CMakeLists.txt:245.  One empty line is the empty list. -/
def cmakeLength (lines : List Bytes) : Nat := if lines = [[]] then 0 else lines.length

/-- The name of the array for key `i`, CMakeLists.txt:255. -/
def keyArray (i : Nat) : Bytes := b!"PUBLIC_KEY_TOOL" ++ decNat i

/-- The header for key `i`, CMakeLists.txt:254, relative to the build directory. -/
def keyHeader (i : Nat) : Bytes := b!"public_key_tool" ++ decNat i ++ b!".h"

/-- The files in the build directory. -/
abbrev BuildDir := Bytes → Option Bytes

def BuildDir.put (d : BuildDir) (f text : Bytes) : BuildDir := fun g => if g = f then some text else d g

/-- The commands added by CMakeLists.txt:253-269, for the elements of the list from number `i` on (`none`: one of them
fails, and with it the build). -/
def makeHeaders (env : BuildEnv) (bin keys : Bytes) : Nat → List Bytes → BuildDir → Res (Option BuildDir)
  | _, [], d => .ok (some d)
  | i, f :: fs, d => do
    let r ← obfuscateMain env [bin ++ b!"/" ++ keyHeader i, keys ++ b!"/" ++ f, keyArray i, b!"TOOL_PUBLIC"]
    match r with
    | ⟨0, some text⟩ => makeHeaders env bin keys (i + 1) fs (d.put (keyHeader i) text)
    | _ => .ok none

/-- The text `GenPublicKeyToolH.cmake` writes for `n` keys, lines 26-97. -/
def keyTableText (n : Nat) : Bytes :=
  let all (pre post : Bytes) : Bytes := (List.range n).flatMap fun i => pre ++ decNat i ++ post
  b!"#define PUBLIC_KEY_TOOL_NUM ( " ++ decNat n ++ b!" )\n" ++
  all b!"#include \"public_key_tool" b!".h\"\n" ++
  b!"#define DECLARE_PUBLIC_KEY_TOOL()" ++ all b!"DECLARE_PUBLIC_KEY_TOOL" b!"();" ++
  b!"unsigned char* PUBLIC_KEY_TOOL[]={" ++ all b!"PUBLIC_KEY_TOOL" b!"," ++
  b!"0}\n#define DECLARE_PUBLIC_KEY_TOOL_LEN() size_t PUBLIC_KEY_TOOL_LEN[]={" ++ all b!"PUBLIC_KEY_TOOL" b!"_LEN," ++
  b!"0}\n#define INITIALIZE_PUBLIC_KEY_TOOL() do {" ++ all b!"INITIALIZE_PUBLIC_KEY_TOOL" b!"();" ++
  b!"} while (0)\n#define CLEAR_PUBLIC_KEY_TOOL() do {" ++ all b!"CLEAR_PUBLIC_KEY_TOOL" b!"();" ++ b!"} while (0)\n"

/-- Configuring and building, CMakeLists.txt:215-282, for the list `text` in directory `keys`, in a build directory
that contains `d` (`none`: stopped with an error). -/
def buildKeys (env : BuildEnv) (bin keys text : Bytes) (d : BuildDir) : Res (Option BuildDir) := do
  let lines := cmakeStrings [] text
  let n := cmakeLength lines
  if n = 0 then .ok none
  else
    match ← makeHeaders env bin keys 0 (lines.filter fun l => l ≠ []) d with
    | none => .ok none
    | some d => .ok (some (d.put b!"public_key_tool.h" (keyTableText n)))

/-- The loop of `validate`, mlle_lve_pubkey.c:71-82, from element `i` of `PUBLIC_KEY_TOOL` on, `n` rounds to go.
`pointers` is the array: the terminating 0 is `none`. -/
def keyLoop (toolKey : Option Bytes) (pointers : List (Option (List (Option UInt8)))) : Nat → Nat → Res Bool
  | _, 0 => .ok false
  | i, n + 1 =>
    match pointers[i]? with
    | none => .ub .oobRead
    | some none => .ub .nullDeref
    | some (some cells) =>
      match toolKey with
      | none => .ub .nullDeref
      | some t => do
        let k ← readCStr cells
        if cstr t = k then .ok true else keyLoop toolKey pointers (i + 1) n

end Semla

import Verif.Model.Lve

/-!
# Entry point of the library vendor executable

Models `main` and `_checkout_feature` of `src/lve/lve.c` (Linux).

Arguments are C strings: the theorems ask for them to be free of NUL.  What is printed for the user on
stdout and stderr is not modelled.  Without a license checkout on the command line, `main` serves one
connection (`Model/Lve.lean`) and exits successfully whatever happens on it; setting up the connection
(`ssl_setup_lve`, `lve_perform_handshake`) is left out.
-/

namespace Semla

/-- End of the option loop. -/
inductive Options where
  /-- the process ends with this status (`true`: EXIT_SUCCESS) -/
  | exit (success : Bool)
  /-- all options are read -/
  | read (feature libpath : Option Bytes)
  deriving DecidableEq, Repr

/-- The option loop of `main`, lve.c:227-274: `argc`, the arguments from `argv[i]` on (`argv[argc]` is
NULL), and the local variables `checkout_feature` and `libpath`.  Reading a value that is missing is
`strlen(NULL)`. -/
def optionLoop (mallocOk : Nat → Bool) (argc : Nat) :
    List Bytes → Option Bytes → Option Bytes → Res Options
  | [], f, l => .ok (.read f l)
  | [a], f, l =>
    if a = b!"--checkout-feature" then
      if f.isSome then .ok (.exit false) else .ub .nullDeref
    else if a = b!"--libpath" then
      if l.isSome then .ok (.exit false) else .ub .nullDeref
    else if a = b!"--version" then .ok (.exit (argc == 2))
    else if a = b!"--help" then .ok (.exit (argc == 2))
    else .ok (.exit false)
  | a :: v :: rest, f, l =>
    if a = b!"--checkout-feature" then
      if f.isSome then .ok (.exit false)
      else if mallocOk (v.length + 1) then optionLoop mallocOk argc rest (some v) l
      else .ok (.exit false)
    else if a = b!"--libpath" then
      if l.isSome then .ok (.exit false)
      else if mallocOk (v.length + 1) then optionLoop mallocOk argc rest f (some v)
      else .ok (.exit false)
    else if a = b!"--version" then .ok (.exit (argc == 2))
    else if a = b!"--help" then .ok (.exit (argc == 2))
    else .ok (.exit false)

/-- Composing, parsing and filling one of the two commands, lve.c:106-137 and 139-173: `asprintf`,
`strdup`, `mlle_parse_command`, `extract_data`.  `none`: a message was printed, and the checkout fails.
`errMsg` is the buffer shared by both. -/
def composeCommand (mallocOk : Nat → Bool) (name arg errMsg : Bytes) : Res (Option Command × Bytes) :=
  let str := name ++ b!" " ++ decNat arg.length ++ b!"\n" ++ arg
  if ¬ mallocOk (str.length + 1) then .ok (none, errMsg)
  else do
    let (g, cmd, errMsg) ← parseCommand lveErrorSize str errMsg
    if g = .valid then do
      let (cmd, _) ← extractData mallocOk cmd str
      .ok (if cmd.data.isSome then some cmd else none, errMsg)
    else .ok (none, errMsg)

/-- How a run of the executable ends. -/
inductive MainEnd where
  /-- it serves a connection -/
  | serve
  /-- it exits (`true`: EXIT_SUCCESS); messages sent to a tool, calls of the license manager -/
  | exit (success : Bool) (sent : List Bytes) (calls : List LicCall)
  deriving DecidableEq, Repr

/-- `_checkout_feature`, lve.c:85-198. -/
def checkoutFeature (conf : LveConf) (w : World) (feature libpath : Bytes) : Res MainEnd := do
  let (lib, errMsg) ← composeCommand w.malloc b!"LIB" libpath []
  match lib with
  | none => .ok (.exit false [] [])
  | some lib => do
    let (feat, _) ← composeCommand w.malloc b!"FEATURE" feature errMsg
    match feat with
    | none => .ok (.exit false [] [])
    | some feat => do
      let (st, out, ok) ← lveLibpath conf w true .initial lib
      if ¬ ok then .ok (.exit false out st.calls)
      else do
        let (st, out', ok) ← lveFeature conf w true st feat
        .ok (.exit ok (out ++ out') st.calls)

/-- `main`, lve.c:215-305; `args` are the arguments without the program name. -/
def lveMain (conf : LveConf) (w : World) (args : List Bytes) : Res MainEnd := do
  let o ← optionLoop w.malloc (args.length + 1) args none none
  match o with
  | .exit b => .ok (.exit b [] [])
  | .read (some _) none => .ok (.exit false [] [])
  | .read (some f) (some l) => checkoutFeature conf w f l
  | .read none _ => .ok .serve

end Semla

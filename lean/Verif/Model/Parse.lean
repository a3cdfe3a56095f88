import Verif.Model.Protocol

/-!
# Parsing of message headers

Models `src/common/mlle_parse_command.c`.
-/

namespace Semla

/-- `enum mlle_grammar_error_t`, mlle_parse_command.h:28-38. -/
inductive Grammar where
  | valid | unknownError | noTokens | tooManyTokens | tooFewTokens | unknownCmd | notAnInt
  | negativeLength
  deriving DecidableEq, Repr

/-- The loop of `mlle_tokenize`, mlle_parse_command.c:79-95.  `slots` is the number of free
entries in `tokens`; a further token with no free entry gives `MLLE_PROTOCOL_TOO_MANY_TOKENS`.
Returns the stored tokens and the value of `ntokens`. -/
def tokenLoop : Nat → Bytes → List Bytes → List Bytes × Nat
  | slots, s, acc =>
    match strtokR 32 s with
    | (none, _) => (acc, acc.length)
    | (some t, rest) =>
      match slots with
      | 0 => (acc, tooManyTokens)
      | slots + 1 => tokenLoop slots rest (acc ++ [t])

/-- `mlle_tokenize`, mlle_parse_command.c:60-98.  The argument is the C string in the buffer.
When the string consists of newlines only the first `strtok_r` returns NULL, and the second one
continues from the save pointer, which is at the end of the string. -/
def tokenize (s : Bytes) : List Bytes × Nat :=
  if s = [] then ([], 0)
  else
    match strtokR 10 s with
    | (none, rest) => tokenLoop maxTokens rest []
    | (some line, _) => tokenLoop maxTokens line []

/-- `parse_int`, mlle_parse_command.c:102-122.  Returns the error flag, `*n` and the contents of
the error buffer.  When `sscanf` reports end of input the error buffer is left as it was. -/
def parseInt (cap : Nat) (intToken cmdToken errMsg : Bytes) : Bool × Int × Bytes :=
  match scanLong intToken with
  | .eof => (true, 0, errMsg)
  | .noMatch =>
    (true, 0, snprintf cap (b!"Parse error. Argument " ++ intToken ++ b!" to command "
      ++ cmdToken ++ b!" is not an integer."))
  | .val n => (false, n, errMsg)

/-- `expected_form_template`, mlle_parse_command.c:36-42, with `%s` replaced by the command. -/
def formTemplate (f : Form) (name : Bytes) : Bytes :=
  match f with
  | .undefined => b!"[This should never be used.]"
  | .simple => name
  | .number => name ++ b!" <number>"
  | .length => name ++ b!" <length>"
  | .numberAndLength => name ++ b!" <number> <length>"

/-- The lookup loop, mlle_parse_command.c:158-165: first defined command with this name. -/
def findCommand (tok : Bytes) : CmdId :=
  match CmdId.defined.find? (fun c => c.name == tok) with
  | some c => c
  | none => .undefined

/-- The part of `mlle_parse_command` after tokenising, mlle_parse_command.c:153-245.  `toks` are
the stored entries of `tokens`, `ntokens` the value returned by `mlle_tokenize`.

Entries of `tokens` that were not stored are NULL; the code only reads `tokens[k]` for
`k < ntokens` or, when `ntokens` is `(size_t) -1`, `tokens[0]`; the model uses `getD` with the
empty string, and `parse_tokens_present` (Lemmas/Parse.lean) shows that the default is never
used.  The two `assert`s of lines 166-167 hold by construction of the enums. -/
def parseWords (cap : Nat) (toks : List Bytes) (ntokens : Nat) (errMsg : Bytes) :
    Res (Grammar × Command × Bytes) :=
  if ntokens = 0 then
    .ok (.noTokens, .zero, snprintf cap b!"No tokens in message.")
  else
    let tok0 := toks.getD 0 []
    let id := findCommand tok0
    if id = .undefined then
      .ok (.unknownCmd, .zero, snprintf cap (b!"Unknown command " ++ tok0 ++ b!"."))
    else if ntokens ≠ id.form.nbrTokens then do
      let text := b!"Too " ++ (if ntokens > id.form.nbrTokens then b!"many" else b!"few")
        ++ b!" arguments for command " ++ tok0 ++ b!". Expected form is "
      let msg ← snprintfAt cap text.length (snprintf cap text) (formTemplate id.form tok0)
      .ok (if ntokens > id.form.nbrTokens then .tooManyTokens else .tooFewTokens, .zero, msg)
    else
      match id.form with
      | .undefined => .ok (.unknownError, .zero, errMsg)
      | .simple => .ok (.valid, ⟨id, 0, 0, none⟩, errMsg)
      | .number =>
        let (e1, n1, m1) := parseInt cap (toks.getD 1 []) tok0 errMsg
        if e1 then .ok (.notAnInt, .zero, m1)
        else .ok (.valid, ⟨id, n1, 0, none⟩, m1)
      | .length =>
        let (e1, n1, m1) := parseInt cap (toks.getD 1 []) tok0 errMsg
        if e1 then .ok (.notAnInt, .zero, m1)
        else if n1 < 0 then
          .ok (.negativeLength, .zero,
            snprintf cap (b!"Parse error. Length argument " ++ decInt n1 ++ b!" to command "
              ++ tok0 ++ b!" is negative."))
        else .ok (.valid, ⟨id, 0, n1.toNat, none⟩, m1)
      | .numberAndLength =>
        let (e1, n1, m1) := parseInt cap (toks.getD 1 []) tok0 errMsg
        if e1 then .ok (.notAnInt, .zero, m1)
        else
          let (e2, n2, m2) := parseInt cap (toks.getD 2 []) tok0 m1
          if e2 then .ok (.notAnInt, .zero, m2)
          else if n2 < 0 then
            .ok (.negativeLength, .zero,
              snprintf cap (b!"Parse error. Length argument " ++ decInt n2 ++ b!" to command "
                ++ tok0 ++ b!" is negative."))
          else .ok (.valid, ⟨id, n1, n2.toNat, none⟩, m2)

/-- `mlle_parse_command`, mlle_parse_command.c:132-246.

`buf` is the content of the writable buffer `string` (its C string is what counts), `cap` is
`error_length` and `errMsg` the text in the error buffer before the call.  The result is the
return value, the command structure and the text in the error buffer afterwards.  The `command`
argument does not appear as an input because lines 146-149 overwrite every field. -/
def parseCommand (cap : Nat) (buf errMsg : Bytes) : Res (Grammar × Command × Bytes) :=
  let t := tokenize (cstr buf)
  parseWords cap t.1 t.2 errMsg

end Semla

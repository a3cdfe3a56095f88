import Verif.Model.Process
import Verif.Model.Tool
import Verif.Model.LveMain
import Verif.Model.Embed

/-!
# Setting up the TLS connection

Models `src/tool/mlle_ssl_tool.c`, `mlle_start_executable` (`src/tool/mlle_licensing.c:64-97`) with the
messages of `mlle_spawn`, `get_public_key` (`src/common/mlle_ssl.c`),
`src/lve/mlle_ssl_lve.c`, `mlle_lve_shutdown` (`src/lve/mlle_lve.c:243-261`) and the part of `main` that serves a
connection (`src/lve/lve.c:284-299`).

The calls of OpenSSL are outcomes (`TlsEnv`, `Connect`, `Peer`).  About `SSL_accept` one thing is assumed
(trusted base): if the peer presents a certificate, it succeeds only if the verification callback
returned 1; if it presents none, the callback is not called.
-/

namespace Semla

/-- Results of the calls that prepare a connection: `create_CTX` and `get_rsa` (given a private key),
`generate_X509`, `SSL_new`, `BIO_new_fd` or `BIO_new_fp` (twice), `SSL_use_certificate`. -/
structure TlsEnv where
  ctx : Bytes → Bool
  rsa : Bytes → Bool
  x509 : Bool
  ssl : Bool
  bio : Bool
  cert : Bool

/-- An error exit of `ssl_setup_tool`: `mlle_error_set(error, 1, code, msg)`, then `cleanup:`. -/
def setupFail (mallocOk : Nat → Bool) (h : KeyHeader) (loc : ErrLoc) (code : Int) (msg : Bytes)
    (key : List (Option UInt8)) : Res (Bool × ErrLoc × List (Option UInt8)) := do
  let loc ← errorSet mallocOk loc 1 code msg
  let key ← h.clear key
  .ok (false, loc, key)

/-- `ssl_setup_tool`, mlle_ssl_tool.c:45-117: result, error, and the array with the private key when it
returns.  `h` is the generated header `private_key_tool.h`. -/
def sslSetupTool (mallocOk : Nat → Bool) (h : KeyHeader) (tls : TlsEnv) (loc : ErrLoc) :
    Res (Bool × ErrLoc × List (Option UInt8)) := do
  let key ← h.initialize
  let text ← readCStr key
  if ¬ tls.ctx text then
    setupFail mallocOk h loc 1 b!"SSL: Failed to create client CTX structure." key
  else if ¬ tls.rsa text then
    setupFail mallocOk h loc 2 b!"SSL: Failed to create client RSA structure." key
  else do
    let key ← h.clear key
    if ¬ tls.x509 then
      setupFail mallocOk h loc 3 b!"SSL: Failed to create client X509 certificate." key
    else if ¬ tls.bio then
      setupFail mallocOk h loc 4 b!"SSL: Failed to create BIO input/output descriptors." key
    else if ¬ tls.ssl then .ub .nullDeref
    else if ¬ tls.cert then
      setupFail mallocOk h loc 5 b!"SSL: Failed to add X509 certificate." key
    else do
      let key ← h.clear key
      .ok (true, loc, key)

/-- `SSL_ERROR_BUF_LEN`, mlle_ssl.h:28. -/
def sslErrorBufLen : Nat := 100

/-- What `SSL_connect` does: succeed, wait forever, or fail, with the result of `SSL_get_error` and the
reasons in the error queue (simplified as for `sslErrorString`). -/
inductive Connect where
  | done
  | never
  | failed (code : Nat) (queue : List Bytes)
  deriving DecidableEq, Repr

/-- `tool_perform_handshake`, mlle_ssl_tool.c:134-159, for a connection that is set up; `none`: does not
return.  `errorString` is not initialised, and an empty error queue leaves it so. -/
def toolHandshake (mallocOk : Nat → Bool) (c : Connect) (loc : ErrLoc) : Res (Option Bool × ErrLoc) :=
  match c with
  | .done => .ok (some true, loc)
  | .never => .ok (none, loc)
  | .failed code queue =>
    if loc = some none ∧ queue = [] then .ub .uninit
    else do
      let loc ← errorSet mallocOk loc 1 2
        (b!"SSL: Handshake failed. Reason: " ++ sslErrorString sslErrorBufLen code queue [])
      .ok (some false, loc)

/-- `mlle_spawn`, mlle_spawn_posix.c:38-112, with its messages; `reason` is `strerror(errno)` after a failing
`access`. -/
def spawnReport (mallocOk : Nat → Bool) (name reason : Bytes) (o : SpawnOut) (loc : ErrLoc) : Res ErrLoc :=
  match o with
  | .noFile =>
    errorSet mallocOk loc 1 1 (b!"LVE file does not exist \"" ++ name ++ b!"\": Error: " ++ reason)
  | .noPermission =>
    errorSet mallocOk loc 1 1
      (b!"execute permission is not set on LVE \"" ++ name ++ b!"\": Error: " ++ reason)
  | .pipeFailed => errorSetLiteral mallocOk loc 1 1 (some b!"pipe() failed.")
  | .forkFailed => errorSetLiteral mallocOk loc 1 1 (some b!"fork() failed.")
  | .noMemory => errorSetLiteral mallocOk loc 1 1 (some b!"Out of memory.")
  | .link _ => .ok loc

/-- What starting depends on. -/
structure StartEnv where
  malloc : Nat → Bool
  limit : Nat
  spawn : SpawnEnv
  name : Bytes
  reason : Bytes
  key : KeyHeader
  tls : TlsEnv
  connect : Connect

/-- How `mlle_start_executable` ends: it does not return, returns NULL, or returns a connection. -/
inductive StartOut where
  | blocked
  | null
  | link (l : Link)
  deriving DecidableEq, Repr

/-- `mlle_start_executable`, mlle_licensing.c:64-97. -/
def startExecutable (e : StartEnv) (s : Sys) (loc : ErrLoc) : Res (StartOut × Sys × ErrLoc) := do
  let (o, s) := spawn e.limit e.spawn s
  let loc ← spawnReport e.malloc e.name e.reason o loc
  match o with
  | .link l => do
    let (ok, loc, _) ← sslSetupTool e.malloc e.key e.tls loc
    if ¬ ok then .ok (.null, s.closeLink l, loc)
    else do
      let (r, loc) ← toolHandshake e.malloc e.connect loc
      match r with
      | none => .ok (.blocked, s, loc)
      | some false => .ok (.null, s.closeLink l, loc)
      | some true => .ok (.link l, s, loc)
  | _ => .ok (.null, s, loc)

/-! ## The vendor executable -/

/-- `ssl_setup_lve`, mlle_ssl_lve.c:104-189: the result, and the array with the private key when it
returns. -/
def sslSetupLve (h : KeyHeader) (tls : TlsEnv) : Res (Bool × List (Option UInt8)) := do
  let key ← h.initialize
  let text ← readCStr key
  if ¬ tls.ctx text ∨ ¬ tls.rsa text then do
    let key ← h.clear key
    .ok (false, key)
  else do
    let key ← h.clear key
    if ¬ tls.bio ∨ ¬ tls.x509 then do
      let key ← h.clear key
      .ok (false, key)
    else if ¬ tls.ssl then .ub .nullDeref
    else do
      let key ← h.clear key
      .ok (tls.cert, key)

/-- The certificate a tool presents: one without a key, one with a key other than RSA, or one with an RSA
key, given as the text `PEM_write_bio_RSA_PUBKEY` makes of it (`none`: this fails). -/
inductive Cert where
  | noKey
  | notRsa
  | rsa (pem : Option Bytes)
  deriving DecidableEq, Repr

/-- `cert_verify_callback`, mlle_ssl_lve.c:52-88, with `get_public_key`, mlle_ssl.c:160-190: the result, and
`global_tool_pub_key`.  The result of `malloc` is not checked. -/
def certVerify (mallocOk : Nat → Bool) : Cert → Res (Bool × Option Bytes)
  | .noKey => .ok (false, none)
  | .notRsa => .ok (false, none)
  | .rsa none => .ok (false, none)
  | .rsa (some pem) => if mallocOk (pem.length + 1) then .ok (true, some pem) else .ub .nullDeref

/-- The tool's part in the handshake: the certificate it presents, if any, and whether everything else of the
handshake works. -/
structure Peer where
  cert : Option Cert
  rest : Bool
  deriving DecidableEq, Repr

/-- `lve_perform_handshake`, mlle_ssl_lve.c:205-232: the result, and `global_tool_pub_key`. -/
def lveHandshake (mallocOk : Nat → Bool) (p : Peer) : Res (Bool × Option Bytes) :=
  match p.cert with
  | none => .ok (p.rest, none)
  | some c => do
    let (ok, key) ← certVerify mallocOk c
    .ok (ok && p.rest, key)

/-- The part of `main` that serves a connection, lve.c:284-299, with `mlle_lve_shutdown`: the replies to each
message.  The process ends with EXIT_SUCCESS.  If `ssl_setup_lve` fails, `SSL_shutdown` gets a null
pointer. -/
def lveServe (mallocOk : Nat → Bool) (h : KeyHeader) (tls : TlsEnv) (p : Peer) (conf : LveConf)
    (rounds : List (World × Bool)) (c : Conn) : Res (List (List Bytes)) := do
  let (ok, _) ← sslSetupLve h tls
  if ¬ ok then .ub .nullDeref
  else do
    let (ok, key) ← lveHandshake mallocOk p
    if ¬ ok then .ok []
    else do
      let st ← lveStart conf key
      let (_, replies) ← lveReceive conf st rounds c
      .ok replies

end Semla

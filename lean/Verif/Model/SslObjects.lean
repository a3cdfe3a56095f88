import Verif.Basic

/-!
# Objects of OpenSSL

Models what the two programs do with the reference-counted objects of OpenSSL: `create_CTX`, `get_rsa` and
`generate_X509` (`src/common/mlle_ssl.c`), `ssl_setup_tool` and `tool_perform_handshake`
(`src/tool/mlle_ssl_tool.c`), `mlle_start_executable` and `mlle_connections_free`
(`src/tool/mlle_licensing.c:48-98`), `cert_verify_callback`, `ssl_setup_lve` and `lve_perform_handshake`
(`src/lve/mlle_ssl_lve.c`) and `mlle_lve_shutdown` (`src/lve/mlle_lve.c:246-262`).

What is in the objects is left out, except whether an RSA object has a private key.  How the functions of
OpenSSL 3.0 count references is taken from its manual pages (trusted base):

* `SSL_CTX_use_RSAPrivateKey` puts the RSA object, with a new reference, in a new EVP_PKEY that the CTX owns;
* `EVP_PKEY_assign_RSA` takes the reference of its caller; `X509_set_pubkey` adds one of its own;
* `SSL_new` adds a reference to the CTX and to its key; `SSL_use_certificate` adds one to the certificate;
* `SSL_set_bio` takes the references of its caller;
* each `_free` function takes one reference away and, if it was the last one, the references of that object.

Simplified: the objects of each connection are in a table of their own (no function of the code gets objects of
two connections); SSL_SESSION and the objects inside OpenSSL that no pointer of the code leads to are left out;
the second reference of an SSL to its CTX (`session_ctx`) is left out, as it is made and dropped with the first.
-/

namespace Semla

/-- The types of objects. -/
inductive SslKind where
  | ctx
  | rsa
  | pkey
  | x509
  | ssl
  | bio
  deriving DecidableEq, Repr

/-- An object: its reference count (0: it has been freed), the objects it has references to, and whether it is
an RSA object with a private key. -/
structure SslObj where
  kind : SslKind
  refs : Nat
  holds : List Nat
  secret : Bool
  deriving DecidableEq, Repr

/-- The objects of a connection, by number. -/
abbrev SslObjs := List SslObj

namespace SslObjs

/-- A constructor of OpenSSL: a new object with one reference, which is the caller's. -/
def make (t : SslObjs) (k : SslKind) (holds : List Nat) (secret : Bool) : Nat × SslObjs :=
  (t.length, t ++ [⟨k, 1, holds, secret⟩])

/-- A function of OpenSSL reads or writes the object at this pointer.  A freed object counts as memory that is
out of bounds. -/
def use (t : SslObjs) (p : Option Nat) : Res Nat :=
  match p with
  | none => .ub .nullDeref
  | some i =>
    match t[i]? with
    | none => .ub .oobRead
    | some o => if o.refs = 0 then .ub .oobRead else .ok i

/-- `X509_up_ref` and the like. -/
def upRef (t : SslObjs) (i : Nat) : Res SslObjs :=
  match t[i]? with
  | none => .ub .oobRead
  | some o => if o.refs = 0 then .ub .oobRead else .ok (t.set i { o with refs := o.refs + 1 })

/-- Object `i` now owns a reference to object `j` (which was counted before). -/
def give (t : SslObjs) (i j : Nat) : Res SslObjs :=
  match t[i]? with
  | none => .ub .oobRead
  | some o => if o.refs = 0 then .ub .oobRead else .ok (t.set i { o with holds := o.holds ++ [j] })

/-- Take one reference away from each of these objects, and from what they own if it was the last one. -/
def dropAll : Nat → SslObjs → List Nat → Res SslObjs
  | _, t, [] => .ok t
  | 0, _, _ :: _ => .ub .tooDeep
  | fuel + 1, t, i :: rest =>
    match t[i]? with
    | none => .ub .badFree
    | some o =>
      if o.refs = 0 then .ub .badFree
      else if o.refs = 1 then dropAll fuel (t.set i { o with refs := 0, holds := [] }) (o.holds ++ rest)
      else dropAll fuel (t.set i { o with refs := o.refs - 1 }) rest

/-- All references that are counted; each step of `dropAll` takes one away. -/
def total (t : SslObjs) : Nat := (t.map (·.refs)).sum

/-- `SSL_free`, `BIO_free`, `RSA_free` and the like; nothing happens for NULL. -/
def release (t : SslObjs) (p : Option Nat) : Res SslObjs :=
  match p with
  | none => .ok t
  | some i => dropAll (t.total + 1) t [i]

end SslObjs

/-- Which calls of OpenSSL succeed when a connection is set up. -/
structure SslCalls where
  /-- `SSL_CTX_new` -/
  ctxNew : Bool
  /-- `SSL_CTX_set_cipher_list` -/
  ciphers : Bool
  /-- `BIO_new_mem_buf` and `PEM_read_bio_RSAPrivateKey`, called from `create_CTX` -/
  memBio : Bool
  pem : Bool
  /-- `SSL_CTX_use_RSAPrivateKey` -/
  useKey : Bool
  /-- the same two, called from `ssl_setup_tool` and `ssl_setup_lve` -/
  memBio' : Bool
  pem' : Bool
  /-- `EVP_PKEY_new`, `X509_new`, `X509_sign` -/
  pkeyNew : Bool
  x509New : Bool
  sign : Bool
  /-- `SSL_new`; in the vendor executable, it is called twice -/
  sslNew : Bool
  sslNew' : Bool
  /-- `BIO_new_fd` or `BIO_new_fp` for the two directions -/
  bioWrite : Bool
  bioRead : Bool
  /-- `SSL_use_certificate` -/
  useCert : Bool
  deriving DecidableEq, Repr

/-- `get_rsa`, mlle_ssl.c:128-148. -/
def getRsaObj (memBio pem : Bool) (t : SslObjs) : Res (Option Nat × SslObjs) :=
  if ¬ memBio then .ok (none, t)
  else do
    let (bio, t) := t.make .bio [] false
    if ¬ pem then do
      let t ← t.release (some bio)
      .ok (none, t)
    else do
      let (rsa, t) := t.make .rsa [] true
      let t ← t.release (some bio)
      .ok (some rsa, t)

/-- `SSL_CTX_use_RSAPrivateKey`: a new EVP_PKEY with a reference to the RSA object, owned by the CTX. -/
def useRsaKey (ok : Bool) (ctx rsa : Nat) (t : SslObjs) : Res (Bool × SslObjs) :=
  if ¬ ok then .ok (false, t)
  else do
    let t ← t.upRef rsa
    let (pkey, t) := t.make .pkey [rsa] false
    let t ← t.give ctx pkey
    .ok (true, t)

/-- `create_CTX`, mlle_ssl.c:66-112.  The RSA object is never freed, and the CTX is not freed on error. -/
def createCtx (c : SslCalls) (t : SslObjs) : Res (Option Nat × SslObjs) :=
  if ¬ c.ctxNew then .ok (none, t)
  else do
    let (ctx, t) := t.make .ctx [] false
    if ¬ c.ciphers then .ok (none, t)
    else do
      let (rsa, t) ← getRsaObj c.memBio c.pem t
      match rsa with
      | none => .ok (none, t)
      | some rsa => do
        let (ok, t) ← useRsaKey c.useKey ctx rsa t
        if ¬ ok then .ok (none, t) else .ok (some ctx, t)

/-- The EVP_PKEY of `generate_X509`, mlle_ssl.c:213-214: `EVP_PKEY_assign_RSA` of a null pointer fails, and the
caller keeps its reference to the RSA object. -/
def certKey (ok : Bool) (rsa : Nat) (t : SslObjs) : Option Nat × SslObjs :=
  if ok then
    let (pkey, t) := t.make .pkey [rsa] false
    (some pkey, t)
  else (none, t)

/-- `X509_set_pubkey`, mlle_ssl.c:226; it fails for a null pointer, which is not noticed. -/
def setPubkey (x509 : Nat) (pkey : Option Nat) (t : SslObjs) : Res SslObjs :=
  match pkey with
  | none => .ok t
  | some k => do
    let t ← t.upRef k
    t.give x509 k

/-- `generate_X509`, mlle_ssl.c:201-245.  The results of `EVP_PKEY_new` and `X509_new` are not checked; signing
with a null pointer fails; the EVP_PKEY is never freed, and the certificate is not freed on error. -/
def generateX509 (c : SslCalls) (rsa : Nat) (t : SslObjs) : Res (Option Nat × SslObjs) := do
  let rsa ← t.use (some rsa)
  let (pkey, t) := certKey c.pkeyNew rsa t
  if ¬ c.x509New then .ub .nullDeref
  else do
    let (x509, t) := t.make .x509 [] false
    let t ← setPubkey x509 pkey t
    if ¬ (c.sign ∧ pkey.isSome) then .ok (none, t) else .ok (some x509, t)

/-- `SSL_new`: the SSL has a reference to the CTX and one to each key of the CTX. -/
def sslNewObj (ok : Bool) (ctx : Nat) (t : SslObjs) : Res (Option Nat × SslObjs) :=
  if ¬ ok then .ok (none, t)
  else
    match t[ctx]? with
    | none => .ub .oobRead
    | some o => do
      let t ← (ctx :: o.holds).foldlM SslObjs.upRef t
      let (ssl, t) := t.make .ssl (ctx :: o.holds) false
      .ok (some ssl, t)

/-- `BIO_new_fd(…, BIO_NOCLOSE)`, `BIO_new_fp(…, BIO_NOCLOSE)`. -/
def bioNew (ok : Bool) (t : SslObjs) : Option Nat × SslObjs :=
  if ok then
    let (bio, t) := t.make .bio [] false
    (some bio, t)
  else (none, t)

/-- `SSL_use_certificate`. -/
def useCertificate (ok : Bool) (ssl : Option Nat) (x509 : Nat) (t : SslObjs) : Res (Bool × SslObjs) := do
  let ssl ← t.use ssl
  if ¬ ok then .ok (false, t)
  else do
    let t ← t.upRef x509
    let t ← t.give ssl x509
    .ok (true, t)

/-- `SSL_set_bio`. -/
def setBio (ssl : Option Nat) (bioRead bioWrite : Nat) (t : SslObjs) : Res (Nat × SslObjs) := do
  let ssl ← t.use ssl
  let t ← t.give ssl bioRead
  let t ← t.give ssl bioWrite
  .ok (ssl, t)

/-- `ssl_setup_tool`, mlle_ssl_tool.c:45-120: `(*lve)->ssl` when it returns (it was NULL before). -/
def toolObjects (c : SslCalls) : Res (Option Nat × SslObjs) := do
  let (ctx, t) ← createCtx c []
  match ctx with
  | none => .ok (none, t)
  | some ctx => do
    let (rsa, t) ← getRsaObj c.memBio' c.pem' t
    match rsa with
    | none => .ok (none, t)
    | some rsa => do
      let (x509, t) ← generateX509 c rsa t
      match x509 with
      | none => .ok (none, t)
      | some x509 => do
        let (ssl, t) ← sslNewObj c.sslNew ctx t
        let (bw, t) := bioNew c.bioWrite t
        let (br, t) := bioNew c.bioRead t
        match bw, br with
        | some bw, some br => do
          let (ok, t) ← useCertificate c.useCert ssl x509 t
          if ¬ ok then .ok (none, t)
          else do
            let (ssl, t) ← setBio ssl br bw t
            .ok (some ssl, t)
        | _, _ => .ok (none, t)

/-- A connection of the tool: `connections->ssl` (`none` also after `mlle_connections_free`), and its objects. -/
structure SslConn where
  ssl : Option Nat
  objs : SslObjs
  deriving DecidableEq, Repr

/-- Something of OpenSSL is called with the SSL of a connection: `SSL_connect`, `SSL_read`, `SSL_write` and so
on.  They use the SSL and everything it has references to. -/
def SslConn.call (c : SslConn) : Res Unit := do
  let ssl ← c.objs.use c.ssl
  match c.objs[ssl]? with
  | none => .ub .oobRead
  | some o => o.holds.forM fun i => do
    let _ ← c.objs.use (some i)
    .ok ()

/-- `mlle_connections_free`, mlle_licensing.c:48-63.  `SSL_shutdown` uses the SSL. -/
def SslConn.close (c : SslConn) : Res SslConn :=
  match c.ssl with
  | none => .ok c
  | some ssl => do
    c.call
    let t ← c.objs.release (some ssl)
    .ok ⟨none, t⟩

/-- `mlle_start_executable`, mlle_licensing.c:65-98, after `mlle_spawn`; `shake`: the handshake succeeds. -/
def startObjects (c : SslCalls) (shake : Bool) : Res SslConn := do
  let (ssl, t) ← toolObjects c
  match ssl with
  | none => .ok ⟨none, t⟩
  | some ssl => do
    (SslConn.mk (some ssl) t).call
    if shake then .ok ⟨some ssl, t⟩ else (SslConn.mk (some ssl) t).close

/-- What a tool does: start an executable, call a function of the library that reads or writes on connection
`k`, release connection `k`. -/
inductive SslStep where
  | start (c : SslCalls) (shake : Bool)
  | call (k : Nat)
  | close (k : Nat)
  deriving DecidableEq, Repr

/-- One step of a tool; the connections are numbered in the order of the starts. -/
def SslStep.run (s : List SslConn) : SslStep → Res (List SslConn)
  | .start c shake => do
    let n ← startObjects c shake
    .ok (s ++ [n])
  | .call k =>
    match s[k]? with
    | none => .ub .nullDeref
    | some n => do
      n.call
      .ok s
  | .close k =>
    match s[k]? with
    | none => .ok s
    | some n => do
      let n ← n.close
      .ok (s.set k n)

/-! ## The vendor executable -/

/-- `ssl_setup_lve`, mlle_ssl_lve.c:105-194: `lve_ctx->ssl` when it returns.  The first SSL is lost. -/
def lveObjects (c : SslCalls) : Res (Option Nat × SslObjs) := do
  let (ctx, t) ← createCtx c []
  match ctx with
  | none => .ok (none, t)
  | some ctx => do
    let (rsa, t) ← getRsaObj c.memBio' c.pem' t
    match rsa with
    | none => .ok (none, t)
    | some rsa => do
      let (_, t) ← sslNewObj c.sslNew ctx t
      let (bw, t) := bioNew c.bioWrite t
      let (br, t) := bioNew c.bioRead t
      match bw, br with
      | some bw, some br => do
        let (x509, t) ← generateX509 c rsa t
        match x509 with
        | none => .ok (none, t)
        | some x509 => do
          let (ssl, t) ← sslNewObj c.sslNew' ctx t
          let (ssl, t) ← setBio ssl br bw t
          let (ok, t) ← useCertificate c.useCert (some ssl) x509 t
          if ¬ ok then .ok (none, t) else .ok (some ssl, t)
      | _, _ => .ok (none, t)

/-- `cert_verify_callback`, mlle_ssl_lve.c:52-89, for a certificate with a key (`pkey`) that contains an RSA
object (`rsa`): `X509_get_pubkey` and `EVP_PKEY_get1_RSA` add references; if `get_public_key` fails (`pem`),
they are not dropped.  (`malloc` in `get_public_key`: `certVerify`.) -/
def verifyObjects (pkey rsa : Nat) (pem : Bool) (t : SslObjs) : Res (Bool × SslObjs) := do
  let t ← t.upRef pkey
  let t ← t.upRef rsa
  let _ ← t.use (some rsa)
  if ¬ pem then .ok (false, t)
  else do
    let t ← t.release (some rsa)
    let t ← t.release (some pkey)
    .ok (true, t)

/-- `lve_perform_handshake`, mlle_ssl_lve.c:208-232: the certificate of the tool, with its key, becomes an object
that the SSL owns; `none`: the tool sends no certificate. -/
def shakeObjects (cert : Option Bool) (rest : Bool) (n : SslConn) : Res (Bool × SslConn) := do
  n.call
  match cert with
  | none => .ok (rest, n)
  | some pem => do
    let ssl ← n.objs.use n.ssl
    let (rsa, t) := n.objs.make .rsa [] false
    let (pkey, t) := t.make .pkey [rsa] false
    let (x509, t) := t.make .x509 [pkey] false
    let t ← t.give ssl x509
    let (ok, t) ← verifyObjects pkey rsa pem t
    .ok (ok && rest, ⟨n.ssl, t⟩)

/-- The part of `main` that serves a connection, lve.c:289-299, with `calls` messages (reading one and answering
it), and `mlle_lve_shutdown`: `SSL_shutdown`, also of a null pointer, and `SSL_free`. -/
def serveObjects (c : SslCalls) (cert : Option Bool) (rest : Bool) (calls : Nat) : Res SslConn := do
  let (ssl, t) ← lveObjects c
  match ssl with
  | none => .ub .nullDeref
  | some ssl => do
    let (ok, n) ← shakeObjects cert rest ⟨some ssl, t⟩
    if ok then do
      (List.replicate calls ()).forM fun _ => n.call
      n.call
      let t ← n.objs.release n.ssl
      .ok ⟨none, t⟩
    else do
      n.call
      let t ← n.objs.release n.ssl
      .ok ⟨none, t⟩

end Semla

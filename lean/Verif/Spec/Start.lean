import Verif.Model.Start
import Verif.Spec.Lve
import Mathlib.Data.List.Defs

/-! # Specification vocabulary for setting up connections -/

namespace Semla.Spec

open Semla

/-- An error object with a message. -/
def Reported (loc : ErrLoc) (e : Err) (m : Bytes) : Prop :=
  loc = some (some e) ∧ e.message = some m ∧ m ≠ []

/-- The contents of a key file without carriage returns. -/
def unixText (file : Bytes) : Bytes := file.filter (· ≠ 13)

/-- OpenSSL accepts this private key and no other one, and has no other trouble. -/
def acceptsOnly (key : Bytes) : TlsEnv := ⟨fun k => k == key, fun k => k == key, true, true, true, true⟩

/-- The first thing that OpenSSL fails to prepare with this private key: the code and what there is to say. -/
inductive SetupTrouble (tls : TlsEnv) (key : Bytes) : Int → Bytes → Prop where
  | ctx : tls.ctx key = false → SetupTrouble tls key 1 b!"SSL: Failed to create client CTX structure."
  | rsa : tls.ctx key = true → tls.rsa key = false →
      SetupTrouble tls key 2 b!"SSL: Failed to create client RSA structure."
  | x509 : tls.ctx key = true → tls.rsa key = true → tls.x509 = false →
      SetupTrouble tls key 3 b!"SSL: Failed to create client X509 certificate."
  | bio : tls.ctx key = true → tls.rsa key = true → tls.x509 = true → tls.bio = false →
      SetupTrouble tls key 4 b!"SSL: Failed to create BIO input/output descriptors."
  | cert : tls.ctx key = true → tls.rsa key = true → tls.x509 = true → tls.bio = true → tls.ssl = true →
      tls.cert = false → SetupTrouble tls key 5 b!"SSL: Failed to add X509 certificate."

/-- The public key of the tool of which `SSL_accept` has made sure that the peer has the private key. -/
def Proven (p : Peer) (key : Bytes) : Prop := p.cert = some (.rsa (some key)) ∧ p.rest = true

/-- The trusted keys of a vendor executable built with these key files. -/
def BuiltWith (conf : LveConf) (files : List Bytes) : Prop :=
  List.Forall₂ (fun f k => ∃ cells, (createHeader f).initialize = .ok cells ∧ readCStr cells = .ok k)
    files conf.trusted

end Semla.Spec

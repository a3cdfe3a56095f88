import Verif.Model.SslObjects

/-!
# What is asked of the objects of a connection

Specification for C88: objects that are in use exist, and objects that are not in use are freed.
-/

namespace Semla.Spec

/-- Object `i` of the table has not been freed. -/
def LiveObj (t : SslObjs) (i : Nat) : Prop := ∃ o, t[i]? = some o ∧ 0 < o.refs

/-- Object `j` can be reached from object `i` along the pointers in the objects. -/
inductive ReachObj (t : SslObjs) (i : Nat) : Nat → Prop where
  | self : ReachObj t i i
  | step (j k : Nat) (o : SslObj) : ReachObj t i j → t[j]? = some o → k ∈ o.holds → ReachObj t i k

/-- The connection is open, and everything OpenSSL reaches from its SSL exists. -/
def UsableConn (n : SslConn) : Prop := ∃ i, n.ssl = some i ∧ ∀ j, ReachObj n.objs i j → LiveObj n.objs j

/-- The RSA objects with a private key that have not been freed. -/
def keysIn (t : SslObjs) : Nat := t.countP fun o => 0 < o.refs && o.secret

/-- Those of all connections a program has started, released ones included. -/
def keysInMemory (s : List SslConn) : Nat := (s.map fun n => keysIn n.objs).sum

/-- What a caller may do: start executables whenever there is enough memory for an X509 and an SSL object; use
connections that are open; release connections at any time. -/
def AllowedStep (s : List SslConn) : SslStep → Prop
  | .start c _ => c.x509New = true ∧ c.sslNew = true
  | .call k => ∃ n, s[k]? = some n ∧ n.ssl.isSome
  | .close _ => True

/-- Each step is allowed when it is taken, and leads to the connections `s'`. -/
inductive ToolHistory : List SslConn → List SslStep → List SslConn → Prop where
  | nil (s : List SslConn) : ToolHistory s [] s
  | cons (s s₁ s' : List SslConn) (a : SslStep) (rest : List SslStep) :
    AllowedStep s a → a.run s = .ok s₁ → ToolHistory s₁ rest s' → ToolHistory s (a :: rest) s'

/-- A start for which all calls of OpenSSL and the handshake succeed. -/
def goodCalls : SslCalls :=
  ⟨true, true, true, true, true, true, true, true, true, true, true, true, true, true, true⟩

/-- The number of such starts among the steps. -/
def goodStarts (steps : List SslStep) : Nat := steps.countP fun a => a == .start goodCalls true

end Semla.Spec

import Verif.Spec.SslObjects

/-!
# C88: Objects of a connection exist while it is in use and are freed with it
-/

namespace Semla.Props

open Spec

/-- The connection a successful start returns. -/
def openConn : SslConn :=
  ⟨some 8, [⟨.ctx, 2, [3], false⟩, ⟨.bio, 0, [], false⟩, ⟨.rsa, 2, [], true⟩, ⟨.pkey, 2, [2], false⟩,
    ⟨.bio, 0, [], false⟩, ⟨.rsa, 1, [], true⟩, ⟨.pkey, 2, [5], false⟩, ⟨.x509, 2, [6], false⟩,
    ⟨.ssl, 1, [0, 3, 7, 10, 9], false⟩, ⟨.bio, 1, [], false⟩, ⟨.bio, 1, [], false⟩]⟩

/-- What is left of it when it has been released. -/
def closedConn : SslConn :=
  ⟨none, [⟨.ctx, 1, [3], false⟩, ⟨.bio, 0, [], false⟩, ⟨.rsa, 2, [], true⟩, ⟨.pkey, 1, [2], false⟩,
    ⟨.bio, 0, [], false⟩, ⟨.rsa, 1, [], true⟩, ⟨.pkey, 2, [5], false⟩, ⟨.x509, 1, [6], false⟩,
    ⟨.ssl, 0, [], false⟩, ⟨.bio, 0, [], false⟩, ⟨.bio, 0, [], false⟩]⟩

/-- A start ends well: no undefined behaviour, and the connection is closed or the one above. -/
def startFine : Res SslConn → Bool
  | .ok n => n.ssl.isNone || n == openConn
  | .ub _ => false

theorem startFine_all : ∀ a₁ a₂ a₃ a₄ a₅ b₁ b₂ p g s' w r u sh : Bool,
    startFine (startObjects ⟨a₁, a₂, a₃, a₄, a₅, b₁, b₂, p, true, g, true, s', w, r, u⟩ sh) = true := by
  decide +kernel

theorem start_cases (c : SslCalls) (sh : Bool) (hx : c.x509New = true) (hs : c.sslNew = true) :
    ∃ n, startObjects c sh = .ok n ∧ (n.ssl = none ∨ n = openConn) := by
  obtain ⟨a₁, a₂, a₃, a₄, a₅, b₁, b₂, p, x, g, s, s', w, r, u⟩ := c
  dsimp only at hx hs
  subst hx hs
  have h := startFine_all a₁ a₂ a₃ a₄ a₅ b₁ b₂ p g s' w r u sh
  revert h
  generalize startObjects _ sh = y
  cases y with
  | ub k => intro h; cases h
  | ok n =>
    intro h
    refine ⟨n, rfl, ?_⟩
    simp only [startFine, Bool.or_eq_true, Option.isNone_iff_eq_none, beq_iff_eq] at h
    exact h

theorem start_good : startObjects goodCalls true = .ok openConn := by decide +kernel

theorem open_call : openConn.call = .ok () := by decide +kernel

theorem open_close : openConn.close = .ok closedConn := by decide +kernel

/-- Each connection of a history is closed or open as above. -/
def FineConns (s : List SslConn) : Prop := ∀ n ∈ s, n.ssl = none ∨ n = openConn

theorem step_fine (s : List SslConn) (a : SslStep) (h : FineConns s) (ha : AllowedStep s a) :
    ∃ s₁, a.run s = .ok s₁ ∧ FineConns s₁ ∧
      keysInMemory s + (if a = .start goodCalls true then 2 else 0) ≤ keysInMemory s₁ := by
  cases a with
  | start c sh =>
    obtain ⟨n, hn, h'⟩ := start_cases c sh ha.1 ha.2
    refine ⟨s ++ [n], ?_, ?_, ?_⟩
    · show (startObjects c sh).bind _ = _
      rw [hn]; rfl
    · intro m hm
      rcases List.mem_append.1 hm with hm | hm
      · exact h m hm
      · rw [List.mem_singleton.1 hm]; exact h'
    · have hk : keysInMemory (s ++ [n]) = keysInMemory s + keysIn n.objs := by
        simp [keysInMemory]
      rw [hk]
      by_cases hg : SslStep.start c sh = .start goodCalls true
      · rw [if_pos hg]
        injection hg with h₁ h₂
        subst h₁ h₂
        rw [start_good] at hn
        injection hn with hn
        subst hn
        exact Nat.add_le_add_left (by decide) _
      · rw [if_neg hg]; omega
  | call k =>
    obtain ⟨n, hk, hn⟩ := ha
    refine ⟨s, ?_, h, by simp⟩
    rcases h n (List.mem_of_getElem? hk) with h' | h'
    · rw [h'] at hn; cases hn
    · simp only [SslStep.run, hk]
      rw [h', open_call]; rfl
  | close k =>
    cases hk : s[k]? with
    | none => exact ⟨s, by simp only [SslStep.run, hk], h, by simp⟩
    | some n =>
      have hlt : k < s.length := (List.getElem?_eq_some_iff.1 hk).1
      have hget : s[k] = n := (List.getElem?_eq_some_iff.1 hk).2
      rcases h n (List.mem_of_getElem? hk) with h' | h'
      · refine ⟨s, ?_, h, by simp⟩
        have : n.close = .ok n := by simp only [SslConn.close, h']
        simp only [SslStep.run, hk]
        rw [this]
        show Res.ok (s.set k n) = _
        rw [← hget, List.set_getElem_self]
      · refine ⟨s.set k closedConn, ?_, ?_, ?_⟩
        · simp only [SslStep.run, hk]
          rw [h', open_close]; rfl
        · intro m hm
          rcases List.mem_or_eq_of_mem_set hm with hm | hm
          · exact h m hm
          · left; rw [hm]; rfl
        · rw [if_neg (by simp)]
          have e : keysIn n.objs = keysIn closedConn.objs := by rw [h']; decide
          have : (s.set k closedConn).map (fun n => keysIn n.objs) = s.map (fun n => keysIn n.objs) := by
            rw [List.map_set, ← e, ← hget]
            have hl : k < (s.map fun n => keysIn n.objs).length := by simpa using hlt
            rw [show keysIn s[k].objs = (s.map fun n => keysIn n.objs)[k] by simp]
            exact List.set_getElem_self hl
          simp only [keysInMemory, this]
          omega

theorem history_fine {s s' : List SslConn} {steps : List SslStep} (h : ToolHistory s steps s')
    (hf : FineConns s) : FineConns s' ∧ keysInMemory s + 2 * goodStarts steps ≤ keysInMemory s' := by
  induction h with
  | nil s => exact ⟨hf, by simp [goodStarts]⟩
  | cons s s₁ s' a rest ha hr _ ih =>
    obtain ⟨s₂, hr', hf', hk⟩ := step_fine s a hf ha
    rw [hr] at hr'
    injection hr' with e
    subst e
    obtain ⟨h₁, h₂⟩ := ih hf'
    refine ⟨h₁, ?_⟩
    have : goodStarts (a :: rest) = goodStarts rest + (if a = .start goodCalls true then 1 else 0) := by
      simp [goodStarts, List.countP_cons]
    rw [this]
    split at hk
    · rename_i e; rw [if_pos e]; omega
    · rename_i e; rw [if_neg e]; omega

/-- **C88** (memory safety, part).  Whatever a tool does with its connections, in any order, and whichever calls
of OpenSSL fail, no object is used or freed after it was freed.  Missing: `X509_new` and `SSL_new` that fail
(`c88_null_not`). -/
theorem c88_safe_partial (steps : List SslStep) (s : List SslConn) (h : ToolHistory [] steps s) (a : SslStep)
    (ha : AllowedStep s a) : ∃ s', a.run s = .ok s' := by
  obtain ⟨s', hr, _⟩ := step_fine s a (history_fine h (by intro n hn; cases hn)).1 ha
  exact ⟨s', hr⟩

theorem reach_open (j : Nat) (h : ReachObj openConn.objs 8 j) : LiveObj openConn.objs j ∧ j < 11 := by
  have hl : ∀ i < 11, i ≠ 1 → i ≠ 4 → LiveObj openConn.objs i := by
    intro i hi h1 h4
    match i, hi, h1, h4 with
    | 0, _, _, _ => exact ⟨_, rfl, by decide⟩
    | 2, _, _, _ => exact ⟨_, rfl, by decide⟩
    | 3, _, _, _ => exact ⟨_, rfl, by decide⟩
    | 5, _, _, _ => exact ⟨_, rfl, by decide⟩
    | 6, _, _, _ => exact ⟨_, rfl, by decide⟩
    | 7, _, _, _ => exact ⟨_, rfl, by decide⟩
    | 8, _, _, _ => exact ⟨_, rfl, by decide⟩
    | 9, _, _, _ => exact ⟨_, rfl, by decide⟩
    | 10, _, _, _ => exact ⟨_, rfl, by decide⟩
  have hc : ∀ o ∈ openConn.objs, ∀ k ∈ o.holds, k < 11 ∧ k ≠ 1 ∧ k ≠ 4 := by decide
  have : j < 11 ∧ j ≠ 1 ∧ j ≠ 4 := by
    induction h with
    | self => decide
    | step j k o _ ho hk _ => exact hc o (List.mem_of_getElem? ho) k hk
  exact ⟨hl j this.1 this.2.1 this.2.2, this.1⟩

/-- **C88** (liveness of what is in use).  As long as a connection is not released, everything OpenSSL can reach
from it exists: the context, the certificate, the private key, and the two BIOs. -/
theorem c88_usable (steps : List SslStep) (s : List SslConn) (h : ToolHistory [] steps s) (n : SslConn)
    (hn : n ∈ s) (ho : n.ssl ≠ none) : UsableConn n := by
  rcases (history_fine h (by intro n hn; cases hn)).1 n hn with h' | h'
  · exact absurd h' ho
  · exact ⟨8, by rw [h']; rfl, fun j hj => by rw [h'] at hj ⊢; exact (reach_open j hj).1⟩

/-- **C88** (release, part).  When a connection that was started is released, its SSL and its BIOs are freed.
Missing: the CTX, the certificate and the keys (`c88_keys_not`), and starts that fail (`c88_start_not`). -/
theorem c88_released_partial (c : SslCalls) (sh : Bool) (hx : c.x509New = true) (hs : c.sslNew = true)
    (n : SslConn) (h : startObjects c sh = .ok n) (ho : n.ssl ≠ none) :
    ∃ m, n.close = .ok m ∧ m.ssl = none ∧
      ∀ o ∈ m.objs, o.kind = .ssl ∨ o.kind = .bio → o.refs = 0 := by
  obtain ⟨n', h', hc⟩ := start_cases c sh hx hs
  rw [h] at h'
  injection h' with e
  subst e
  rcases hc with hc | hc
  · exact absurd hc ho
  · exact ⟨closedConn, by rw [hc]; exact open_close, rfl, by decide⟩

/-- **C88** (negation).  Each successful start leaves two RSA objects with the private key of the tool in memory,
whether or not the connection has been released: a tool that starts and releases executables again and again
accumulates copies of its private key. -/
theorem c88_keys_not (steps : List SslStep) (s : List SslConn) (h : ToolHistory [] steps s) :
    2 * goodStarts steps ≤ keysInMemory s := by
  have := (history_fine h (by intro n hn; cases hn)).2
  simpa [keysInMemory] using this

/-- Non-vacuity: two executables are started, both are used, one is released (twice), the other used again. -/
def sslSteps : List SslStep :=
  [.start goodCalls true, .start goodCalls true, .call 0, .call 1, .close 0, .close 0, .call 1]

theorem sslSteps_history : ToolHistory [] sslSteps [closedConn, openConn] :=
  .cons _ [openConn] _ _ _ ⟨rfl, rfl⟩ (by decide +kernel)
    (.cons _ [openConn, openConn] _ _ _ ⟨rfl, rfl⟩ (by decide +kernel)
      (.cons _ [openConn, openConn] _ _ _ ⟨openConn, rfl, rfl⟩ (by decide +kernel)
        (.cons _ [openConn, openConn] _ _ _ ⟨openConn, rfl, rfl⟩ (by decide +kernel)
          (.cons _ [closedConn, openConn] _ _ _ trivial (by decide +kernel)
            (.cons _ [closedConn, openConn] _ _ _ trivial (by decide +kernel)
              (.cons _ [closedConn, openConn] _ _ _ ⟨openConn, rfl, rfl⟩ (by decide +kernel)
                (.nil _)))))))

example : ∃ s', (SslStep.call 1).run [closedConn, openConn] = .ok s' :=
  c88_safe_partial sslSteps _ sslSteps_history _ ⟨openConn, rfl, rfl⟩

example : UsableConn openConn :=
  c88_usable sslSteps _ sslSteps_history openConn (by simp) (by decide)

example : 4 ≤ keysInMemory [closedConn, openConn] := c88_keys_not sslSteps _ sslSteps_history

example : ∃ m, openConn.close = .ok m ∧ m.ssl = none ∧
    ∀ o ∈ m.objs, o.kind = .ssl ∨ o.kind = .bio → o.refs = 0 :=
  c88_released_partial goodCalls true rfl rfl openConn start_good (by decide)

/-- **C88** (negation).  When `X509_new` or `SSL_new` fails, a null pointer is used. -/
theorem c88_null_not :
    startObjects { goodCalls with x509New := false } true = .ub .nullDeref ∧
    startObjects { goodCalls with sslNew := false } true = .ub .nullDeref := by decide +kernel

/-- **C88** (negation).  A start that fails leaves objects behind: for example, when one of the BIOs cannot be
made, the SSL and the other BIO. -/
theorem c88_start_not :
    ∃ n, startObjects { goodCalls with bioRead := false } true = .ok n ∧ n.ssl = none ∧
      ∃ i j, LiveObj n.objs i ∧ LiveObj n.objs j ∧ (n.objs[i]?).map (·.kind) = some .ssl ∧
        (n.objs[j]?).map (·.kind) = some .bio := by
  exact ⟨⟨none, [⟨.ctx, 2, [3], false⟩, ⟨.bio, 0, [], false⟩, ⟨.rsa, 2, [], true⟩, ⟨.pkey, 2, [2], false⟩,
      ⟨.bio, 0, [], false⟩, ⟨.rsa, 1, [], true⟩, ⟨.pkey, 2, [5], false⟩, ⟨.x509, 1, [6], false⟩,
      ⟨.ssl, 1, [0, 3], false⟩, ⟨.bio, 1, [], false⟩]⟩, by decide +kernel, rfl, 8, 9, ⟨_, rfl, by decide⟩,
    ⟨_, rfl, by decide⟩, rfl, rfl⟩

/-! ## The vendor executable -/

/-- The SSL of the vendor executable after `ssl_setup_lve`, for a first `SSL_new` that fails or succeeds. -/
def lveOpen : Bool → SslConn
  | false => ⟨some 10, [⟨.ctx, 2, [3], false⟩, ⟨.bio, 0, [], false⟩, ⟨.rsa, 2, [], true⟩,
      ⟨.pkey, 2, [2], false⟩, ⟨.bio, 0, [], false⟩, ⟨.rsa, 1, [], true⟩, ⟨.bio, 1, [], false⟩,
      ⟨.bio, 1, [], false⟩, ⟨.pkey, 2, [5], false⟩, ⟨.x509, 2, [8], false⟩,
      ⟨.ssl, 1, [0, 3, 7, 6, 9], false⟩]⟩
  | true => ⟨some 11, [⟨.ctx, 3, [3], false⟩, ⟨.bio, 0, [], false⟩, ⟨.rsa, 2, [], true⟩,
      ⟨.pkey, 3, [2], false⟩, ⟨.bio, 0, [], false⟩, ⟨.rsa, 1, [], true⟩, ⟨.ssl, 1, [0, 3], false⟩,
      ⟨.bio, 1, [], false⟩, ⟨.bio, 1, [], false⟩, ⟨.pkey, 2, [5], false⟩, ⟨.x509, 2, [9], false⟩,
      ⟨.ssl, 1, [0, 3, 8, 7, 10], false⟩]⟩

/-- The setup fails, in whatever way, or leads to one of these. -/
def lveFine : Res (Option Nat × SslObjs) → Bool
  | .ok (none, _) => true
  | .ok (i, t) => SslConn.mk i t == lveOpen false || SslConn.mk i t == lveOpen true
  | .ub k => k == .nullDeref

theorem lveFine_all : ∀ a₁ a₂ a₃ a₄ a₅ b₁ b₂ p x g s s' w r u : Bool,
    lveFine (lveObjects ⟨a₁, a₂, a₃, a₄, a₅, b₁, b₂, p, x, g, s, s', w, r, u⟩) = true := by
  decide +kernel

theorem lve_cases (c : SslCalls) (i : Nat) (t : SslObjs) (h : lveObjects c = .ok (some i, t)) :
    ∃ b, SslConn.mk (some i) t = lveOpen b := by
  obtain ⟨a₁, a₂, a₃, a₄, a₅, b₁, b₂, p, x, g, s, s', w, r, u⟩ := c
  have h' := lveFine_all a₁ a₂ a₃ a₄ a₅ b₁ b₂ p x g s s' w r u
  rw [h] at h'
  simp only [lveFine, Bool.or_eq_true, beq_iff_eq] at h'
  rcases h' with h' | h'
  · exact ⟨false, h'⟩
  · exact ⟨true, h'⟩

/-- The handshake ends well, and so do a message on the connection and its release. -/
def shakeFine (b : Bool) (cert : Option Bool) (rest : Bool) : Bool :=
  match shakeObjects cert rest (lveOpen b) with
  | .ok (ok, n) => ok == (cert != some false && rest) && n.call == .ok () &&
      (match n.objs.release n.ssl with
        | .ok t => t.all fun o => (o.kind != .bio || o.refs == 0) &&
            (o.kind != .rsa || o.secret || cert == some false || o.refs == 0)
        | .ub _ => false)
  | .ub _ => false

theorem shakeFine_all : ∀ b rest : Bool, shakeFine b none rest = true ∧ shakeFine b (some false) rest = true ∧
    shakeFine b (some true) rest = true := by
  decide +kernel

theorem forM_calls (k : Nat) (x : Res Unit) (h : x = .ok ()) :
    (List.replicate k ()).forM (fun _ => x) = .ok () := by
  subst h
  induction k with
  | zero => rfl
  | succ k ih =>
    show Res.bind (.ok ()) (fun _ => (List.replicate k ()).forM fun _ => Res.ok ()) = .ok ()
    exact ih

/-- **C88** (vendor executable, part).  Once `ssl_setup_lve` has succeeded, no object is used or freed after it
was freed, whatever the tool sends, and at the end the BIOs and the public key of the tool are freed; the latter
if it could be extracted.  Missing: setups that fail (`SSL_shutdown` then gets a null pointer), and what the
process leaves to the operating system: CTX, certificate, keys and the first SSL. -/
theorem c88_serve_partial (c : SslCalls) (i : Nat) (t : SslObjs) (h : lveObjects c = .ok (some i, t))
    (cert : Option Bool) (rest : Bool) (calls : Nat) :
    ∃ n, serveObjects c cert rest calls = .ok n ∧
      (∀ o ∈ n.objs, o.kind = .bio → o.refs = 0) ∧
      (cert ≠ some false → ∀ o ∈ n.objs, o.kind = .rsa → o.secret = false → o.refs = 0) := by
  obtain ⟨b, hb⟩ := lve_cases c i t h
  have hf : shakeFine b cert rest = true := by
    match cert with
    | none => exact (shakeFine_all b rest).1
    | some false => exact (shakeFine_all b rest).2.1
    | some true => exact (shakeFine_all b rest).2.2
  unfold shakeFine at hf
  rw [← hb] at hf
  cases hs : shakeObjects cert rest ⟨some i, t⟩ with
  | ub k => rw [hs] at hf; cases hf
  | ok p =>
    obtain ⟨ok, n⟩ := p
    rw [hs] at hf
    simp only [Bool.and_eq_true, beq_iff_eq] at hf
    obtain ⟨⟨_, hcall⟩, hrel⟩ := hf
    cases ht : n.objs.release n.ssl with
    | ub k => rw [ht] at hrel; cases hrel
    | ok t' =>
      rw [ht] at hrel
      refine ⟨⟨none, t'⟩, ?_, ?_, ?_⟩
      · show Res.bind (lveObjects c) _ = _
        rw [h]
        show Res.bind (shakeObjects cert rest ⟨some i, t⟩) _ = _
        rw [hs]
        cases ok with
        | true =>
          show Res.bind ((List.replicate calls ()).forM fun _ => n.call) _ = _
          rw [forM_calls calls _ hcall]
          show Res.bind n.call _ = _
          rw [hcall]
          show Res.bind (n.objs.release n.ssl) _ = _
          rw [ht]; rfl
        | false =>
          show Res.bind n.call _ = _
          rw [hcall]
          show Res.bind (n.objs.release n.ssl) _ = _
          rw [ht]; rfl
      · intro o ho hk
        have := List.all_eq_true.1 hrel o ho
        simpa [hk] using this
      · intro hc o ho hk hsec
        have := List.all_eq_true.1 hrel o ho
        simpa [hk, hsec, hc] using this

/-- Non-vacuity: all calls succeed; a tool with certificate sends three messages. -/
example : ∃ n, serveObjects goodCalls (some true) true 3 = .ok n ∧
    (∀ o ∈ n.objs, o.kind = .bio → o.refs = 0) ∧
    (some true ≠ some false → ∀ o ∈ n.objs, o.kind = .rsa → o.secret = false → o.refs = 0) :=
  c88_serve_partial goodCalls 11 (lveOpen true).objs (by decide +kernel) (some true) true 3

end Semla.Props

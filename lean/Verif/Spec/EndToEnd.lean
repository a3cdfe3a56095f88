import Verif.Model.Tool
import Verif.Spec.Lve
import Verif.Spec.Tool
import Verif.Spec.Crypt
import Mathlib.Data.List.Defs

/-!
# Specification vocabulary for both programs together

How replies travel, a client program that uses the tool's API, and what it asks for.
-/

namespace Semla.Spec

open Semla

/-- The reply `r` arrives, cut into records anywhere: only the first record has to hold 100 bytes (or all
there is), and it is no longer than a TLS record can be. -/
def Arrives (evs : List Ev) (r : Bytes) (rest : List Ev) : Prop :=
  ∃ first more, (first :: more).flatten = r ∧ min r.length 100 ≤ first.length ∧ first.length ≤ 16400 ∧
    Delivers evs (first :: more) rest

/-- The replies arrive one after the other. -/
inductive ArriveAll : List Ev → List Bytes → List Ev → Prop where
  | nil (evs) : ArriveAll evs [] evs
  | cons {evs mid rest r rs} : Arrives evs r mid → ArriveAll mid rs rest → ArriveAll evs (r :: rs) rest

/-- The next `n` writes go through, each after some requests to repeat it. -/
inductive WritesAll : Nat → List WEv → List WEv → Prop where
  | nil (w) : WritesAll 0 w w
  | cons {n w mid after} : Writes w mid → WritesAll n mid after → WritesAll (n + 1) w after

/-- A client: asks for the files one after the other and gives up at the first failure. -/
def fetchFiles : List Bytes → Tool → Res (Option (List FileContents) × Tool)
  | [], t => .ok (some [], t)
  | p :: ps, t => do
    match ← toolFile (fun _ => true) t p (some none) with
    | (.success f _, t) => do
      match ← fetchFiles ps t with
      | (some fs, t) => .ok (some (f :: fs), t)
      | (none, t) => .ok (none, t)
    | (_, t) => .ok (none, t)

/-- The same client from the start: version, library, files. -/
def fetch (minV maxV : Int) (lib : Bytes) (paths : List Bytes) (t : Tool) :
    Res (Option (List FileContents) × Tool) := do
  match ← toolVersion (fun _ => true) t minV maxV (some none) with
  | (.success _ _, t) => do
    match ← toolLibpath (fun _ => true) t lib (some none) with
    | (.success _ _, t) => fetchFiles paths t
    | (_, t) => .ok (none, t)
  | (_, t) => .ok (none, t)

/-- A license for the library is available: none is needed, or the license manager is created for the
library and checks out its feature. -/
def Licensed (conf : LveConf) (root : Bytes) : Prop :=
  conf.globalFeature = none ∨ ∃ g, conf.globalFeature = some g ∧
    conf.licenseManager [.new (some root)] = .success ∧
    conf.licenseManager [.new (some root), .checkout g] = .success

/-- What a client asks for and should get: the encrypted form of a source file, which gives its text, or
any other file below the root, which gives its contents. -/
inductive Wanted (jobs : List Job) (root : Bytes) (w : World) : Bytes → Bytes → Prop where
  | source {j} : j ∈ jobs → IsMoc (j.path ++ b!"c") → Wanted jobs root w (j.path ++ b!"c") j.plain
  | other {p content} : (0 : UInt8) ∉ p → ¬ IsMoc p → Holds w (root ++ b!"/" ++ p) content →
      content.length < 2 ^ 63 → Wanted jobs root w p content

/-- The whole conversation of a client and the vendor executable, started for a tool with public key `key`;
`reqs` has the files the client asks for, with the world the executable sees at that time and the contents,
and `w0` and `w1` are the worlds before that.  The messages that the client sends, arriving at the executable
one per record, are answered by one reply each; and however these replies are cut into records (after their
first 100 bytes) and however often reads and writes have to be repeated, all calls of the client succeed,
having sent these messages, and the contents it gets are the ones given. -/
def GetsAll (conf : LveConf) (key : Bytes) (minV maxV : Int) (lib : Bytes) (w0 w1 : World)
    (reqs : List (World × Bytes × Bytes)) : Prop :=
  ∃ sent replies st0 st,
    (∀ m ∈ sent, m ≠ [] ∧ m.length ≤ 16384) ∧ lveStart conf (some key) = .ok st0 ∧
    (∀ evs rest, Delivers evs sent rest →
      lveReceive conf st0 ((w0 :: w1 :: reqs.map (·.1)).map fun w => (w, false)) (fresh evs) =
        .ok (st, replies.map fun r => [r])) ∧
    replies.length = reqs.length + 2 ∧ (∀ r ∈ replies, r ≠ []) ∧
    ∀ evs rest wevs after, ArriveAll evs replies rest → WritesAll (reqs.length + 2) wevs after →
      ∃ fs, fetch minV maxV lib (reqs.map (·.2.1)) ⟨fresh evs, wevs, []⟩ =
          .ok (some fs, ⟨fresh rest, after, sent⟩) ∧
        List.Forall₂ Fetched fs (reqs.map (·.2.2))

end Semla.Spec

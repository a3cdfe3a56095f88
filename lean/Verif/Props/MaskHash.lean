import Verif.Spec.MaskHash
import Verif.Lemmas.UthashCrypt
import Verif.Props.Crypt

/-! # C86: the table of key masks -/

namespace Semla.Props
open Semla Semla.Spec

theorem noHuge_of {alloc : Nat → Bool} (h : NoHugeBlocks alloc) : NoHuge alloc :=
  fun n hn => h n (by omega)

/-! ## The table -/

theorem storeAll_ok : ∀ (l : List ((Nat → Bool) × Bytes × Bytes)) (head : MaskHead) (t : MaskTable),
    Rep head t → (∀ s ∈ l, NoHugeBlocks s.1 ∧ s.2.1.length < 2 ^ 32) →
    ((t ++ l.map (·.2)).map (·.1)).Nodup →
    (storeAll l head = Prog.exit ∧ ∃ s ∈ l, Refused s.1) ∨
    ∃ head', storeAll l head = pure head' ∧ Rep head' (t ++ l.map (·.2))
  | [], head, t, h, _, _ => .inr ⟨head, rfl, by simpa using h⟩
  | (alloc, d, m) :: rest, head, t, h, hl, hn => by
    obtain ⟨h1, h2⟩ := hl _ List.mem_cons_self
    have hf : t.find d = none := by
      rw [find_eq_none]
      intro hd
      simp only [List.map_append, List.map_cons] at hn
      exact (List.nodup_append.1 hn).2.2 d hd d (by simp) rfl
    rcases Follows.add (noHuge_of h1) h (m := m) (by simpa using h2) hf with ⟨e, n, hr⟩ | ⟨a, b, e, hb, hR⟩ | ⟨k, -, hk⟩
    · exact .inl ⟨by simp only [storeAll, e]; rfl, _, List.mem_cons_self, n, hr⟩
    · cases hb
      have e2 : storeAll ((alloc, d, m) :: rest) head = storeAll rest a := by simp only [storeAll, e]; rfl
      have hl' : t ++ List.map (·.2) ((alloc, d, m) :: rest) = (t ++ [(d, m)]) ++ rest.map (·.2) := by simp
      rw [e2, hl']
      rcases storeAll_ok rest a _ hR (fun s hs => hl s (List.mem_cons_of_mem _ hs)) (by rw [← hl']; exact hn) with
        ⟨h3, s, hs, h4⟩ | h3
      · exact .inl ⟨h3, s, List.mem_cons_of_mem _ hs, h4⟩
      · exact .inr h3
    · cases hk

/-- **C86, the table.** After any number of additions of different directories, whatever their hash values
and however often the table was enlarged, looking up a directory gives the mask that was added for it, and
nothing for a directory that was not added.  Nothing is read or written outside the table.

The program may have ended before, but only if `malloc` refused memory (`c86_memory_not`).  Missing for the
full claim: that this is reported as an error; and `malloc` must not grant blocks of 64 GiB (the number of
buckets is an `unsigned`), paths must be shorter than 4 GiB (so is their length). -/
theorem c86_finds_partial (l : List ((Nat → Bool) × Bytes × Bytes))
    (hl : ∀ s ∈ l, NoHugeBlocks s.1 ∧ s.2.1.length < 2 ^ 32) (hn : (l.map (·.2.1)).Nodup) :
    (storeAll l none = Prog.exit ∧ ∃ s ∈ l, Refused s.1) ∨
    ∃ head, storeAll l none = pure head ∧
      ∀ d : Bytes, d.length < 2 ^ 32 → findMask head d = pure ((l.map (·.2)).lookup d) := by
  rcases storeAll_ok l none [] rfl hl (by simpa [Function.comp_def] using hn) with h | ⟨head, h, hR⟩
  · exact .inl h
  · refine .inr ⟨head, h, fun d hd => ?_⟩
    obtain ⟨r, e, hr⟩ := hR.find (k := d) (by simpa using hd)
    simp only [List.nil_append] at hr
    have hlk : ∀ t : MaskTable, t.find d = t.lookup d := by
      intro t
      unfold MaskTable.find
      induction t with
      | nil => rfl
      | cons x t ih =>
        obtain ⟨a, b⟩ := x
        by_cases hab : a = d
        · subst hab; simp [List.lookup]
        · have h1 : (a == d) = false := beq_eq_false_iff_ne.2 hab
          have h2 : (d == a) = false := beq_eq_false_iff_ne.2 (Ne.symm hab)
          simp only [List.find?_cons, h1, List.lookup, h2]; exact ih
    simp only [findMask, e, Res.bind_ok, Prog.lift, hr, hlk]
    rfl

/-- Twelve directories whose hash values agree in the last five bits, so that they share a bucket of a
table of 32. -/
def crowded : List Bytes :=
  [b!"j", b!"p", b!"u", b!"ag", b!"bm", b!"bz", b!"eg", b!"fj", b!"ft", b!"gg", b!"hk", b!"hl"]

/-- Memory up to a megabyte at a time. -/
def megabyte (n : Nat) : Bool := decide (n ≤ 1048576)

theorem megabyte_noHuge : NoHugeBlocks megabyte := by
  intro n hn; simp [megabyte]; omega

/-- What is seen of a table: the number of buckets, and the masks of some directories. -/
def lookAt : Prog MaskHead → List Bytes → Option (UInt32 × List (Prog (Option Bytes)))
  | .ok (some (some t)), ds => some (t.num, ds.map (findMask (some t)))
  | _, _ => none

instance {α : Type} [DecidableEq α] : DecidableEq (Prog α) := inferInstanceAs (DecidableEq (Res (Option α)))

/-- The tenth addition doubles the number of buckets, and every directory keeps its mask. -/
example : lookAt (storeAll (crowded.map fun d => (megabyte, d, d ++ d)) none) (b!"il" :: crowded) =
    some (64, pure none :: crowded.map fun d => pure (some (d ++ d))) := by decide +kernel

/-- Two directories with the same hash value. -/
example : hashJen b!"embx" 4 = hashJen b!"gazb" 4 ∧
    lookAt (storeAll [(megabyte, b!"embx", b!"1"), (megabyte, b!"gazb", b!"2")] none) [b!"embx", b!"gazb"] =
      some (32, [pure (some b!"1"), pure (some b!"2")]) := by decide +kernel

/-! ## Encryption and decryption -/

theorem decryptAllH_ok (e : CrEnv) : ∀ (ps : List ((Nat → Bool) × Bytes)) (head : MaskHead) (t : MaskTable),
    Rep head t → (∀ p ∈ ps, NoHugeBlocks p.1) →
    (decryptAllH e head ps = Prog.exit ∧ ∃ p ∈ ps, Refused p.1) ∨
    decryptAllH e head ps = Prog.lift (do let r ← decryptAll e t (ps.map (·.2)); .ok r.2)
  | [], _, _, _, _ => .inr rfl
  | (alloc, p) :: ps, head, t, h, hps => by
    have h1 := hps _ List.mem_cons_self
    have hps' : ∀ p ∈ ps, NoHugeBlocks p.1 := fun q hq => hps q (List.mem_cons_of_mem _ hq)
    cases hr : e.read (e.basedir ++ b!"/" ++ p) with
    | none =>
      simp only [decryptAllH, decryptAll, List.map_cons, hr]
      rcases decryptAllH_ok e ps head t h hps' with ⟨e1, q, hq, e2⟩ | e1
      · exact .inl ⟨by rw [e1]; rfl, q, List.mem_cons_of_mem _ hq, e2⟩
      · right
        rw [e1]
        cases decryptAll e t (ps.map (·.2)) <;> rfl
    | some content =>
      simp only [decryptAllH, decryptAll, List.map_cons, hr]
      rcases crDecryptH_follows e (noHuge_of h1) h p content with ⟨e1, n, hn⟩ | ⟨a, b, e1, e2, hR⟩ | ⟨k, e1, e2⟩
      · exact .inl ⟨by rw [e1]; rfl, _, List.mem_cons_self, n, hn⟩
      · obtain ⟨hR1, hR2⟩ := hR
        obtain ⟨t', n', o'⟩ := b
        rw [e1, e2]
        rcases decryptAllH_ok e ps a.1 t' hR1 hps' with ⟨e3, q, hq, e4⟩ | e3
        · refine .inl ⟨?_, q, List.mem_cons_of_mem _ hq, e4⟩
          show Prog.bind (decryptAllH e a.1 ps) _ = _
          rw [e3]; rfl
        · right
          show Prog.bind (decryptAllH e a.1 ps) _ = _
          rw [e3, hR2]
          simp only [Res.bind_ok]
          cases decryptAll e t' (ps.map (·.2)) <;> rfl
      · right; rw [e1, e2]; rfl

theorem encryptAllH_ok (e : CrEnv) : ∀ (js : List ((Nat → Bool) × Job)) (head : MaskHead) (t : MaskTable),
    Rep head t → (∀ j ∈ js, NoHugeBlocks j.1) →
    (encryptAllH e head js = Prog.exit ∧ ∃ j ∈ js, Refused j.1) ∨
    encryptAllH e head js = Prog.lift (encryptAll e t (js.map (·.2)))
  | [], _, _, _, _ => .inr rfl
  | (alloc, j) :: js, head, t, h, hjs => by
    have h1 := hjs _ List.mem_cons_self
    have hjs' : ∀ p ∈ js, NoHugeBlocks p.1 := fun q hq => hjs q (List.mem_cons_of_mem _ hq)
    simp only [encryptAllH, encryptAll, List.map_cons]
    rcases crEncryptH_follows e (noHuge_of h1) h j.path j.iv (fun _ => j.mask) j.plain false (fun _ => true) with
      ⟨e1, n, hn⟩ | ⟨a, b, e1, e2, hR⟩ | ⟨k, e1, e2⟩
    · exact .inl ⟨by rw [e1]; rfl, _, List.mem_cons_self, n, hn⟩
    · obtain ⟨hR1, hR2⟩ := hR
      obtain ⟨t', o', ok'⟩ := b
      obtain ⟨a1, a2, a3⟩ := a
      cases hR2
      rw [e1, e2]
      cases ok' with
      | false => exact .inr rfl
      | true =>
        rcases encryptAllH_ok e js a1 t' hR1 hjs' with ⟨e3, q, hq, e4⟩ | e3
        · refine .inl ⟨?_, q, List.mem_cons_of_mem _ hq, e4⟩
          show Prog.bind (encryptAllH e a1 js) _ = _
          rw [e3]; rfl
        · right
          show Prog.bind (encryptAllH e a1 js) _ = _
          rw [e3]
          simp only [Res.bind_ok, ↓reduceIte]
          cases encryptAll e t' (js.map (·.2)) <;> rfl
    · right; rw [e1, e2]; rfl

/-- **C86, libraries.** With the hash table, a library in which every directory on the way to a file has a
package file that is not empty is encrypted in any order that takes package files first, and any sequence of
requests, answered with another hash table, delivers the original contents each time -- unless the program
ended because it got no memory.

Missing for the full claim: as in `c86_finds_partial` and `c33_library_partial`. -/
theorem c86_library_partial (e : CrEnv) (he : GoodEnv e) (jobs : List ((Nat → Bool) × Job))
    (hm : ∀ j ∈ jobs, NoHugeBlocks j.1)
    (hP : Packaged e.keyLen (jobs.map (·.2))) (hne : ∀ j ∈ jobs, j.2.isPackage → j.2.plain ≠ [])
    (hl : ∀ j ∈ jobs, (relPath j.2.dirs).length + 1 ≤ 4096) :
    (encryptAllH e none jobs = Prog.exit ∧ ∃ j ∈ jobs, Refused j.1) ∨
    ∃ outs, encryptAllH e none jobs = pure (some outs) ∧
      outs.map (·.1) = jobs.map (fun j => j.2.path ++ b!"c") ∧
      ∀ basedir read, SizesOk { e with basedir := basedir, read := read } (jobs.map (·.2)) →
        (∀ o ∈ outs, read (basedir ++ b!"/" ++ o.1) = some o.2) →
        ∀ reqs : List ((Nat → Bool) × Job), (∀ r ∈ reqs, NoHugeBlocks r.1 ∧ r.2 ∈ jobs.map (·.2)) →
        (decryptAllH { e with basedir := basedir, read := read } none
            (reqs.map fun r => (r.1, r.2.path ++ b!"c")) = Prog.exit ∧ ∃ r ∈ reqs, Refused r.1) ∨
        decryptAllH { e with basedir := basedir, read := read } none
            (reqs.map fun r => (r.1, r.2.path ++ b!"c")) = pure (reqs.map fun r => some r.2.plain) := by
  have hne' : ∀ j ∈ jobs.map (·.2), j.isPackage → j.plain ≠ [] := by
    intro j hj
    obtain ⟨x, hx, rfl⟩ := List.mem_map.1 hj
    exact hne x hx
  have hl' : ∀ j ∈ jobs.map (·.2), (relPath j.dirs).length + 1 ≤ 4096 := by
    intro j hj
    obtain ⟨x, hx, rfl⟩ := List.mem_map.1 hj
    exact hl x hx
  obtain ⟨outs, h1, h2, h3⟩ := c33_library_partial e he (jobs.map (·.2)) hP hne' hl'
  rcases encryptAllH_ok e jobs none [] rfl hm with h | h
  · exact .inl h
  · refine .inr ⟨outs, by rw [h, h1]; rfl, by rw [h2]; simp, fun basedir read hs ho reqs hr => ?_⟩
    obtain ⟨t, ht⟩ := h3 basedir read hs ho (reqs.map (·.2)) (by
      intro j hj
      obtain ⟨x, hx, rfl⟩ := List.mem_map.1 hj
      exact (hr x hx).2)
    rcases decryptAllH_ok { e with basedir := basedir, read := read }
      (reqs.map fun r => (r.1, r.2.path ++ b!"c")) none [] rfl
      (by
        intro p hp
        obtain ⟨x, hx, rfl⟩ := List.mem_map.1 hp
        exact (hr x hx).1) with ⟨e1, p, hp, e2⟩ | e1
    · obtain ⟨x, hx, rfl⟩ := List.mem_map.1 hp
      exact .inl ⟨e1, x, hx, e2⟩
    · right
      rw [e1]
      simp only [List.map_map, Function.comp_def] at ht ⊢
      rw [ht]
      rfl

example : decryptAllH (toyEnv (outsOf (toyEnv []) exLib)) none
    [(megabyte, b!"A/x.moc"), (megabyte, b!"package.moc"), (megabyte, b!"A/x.moc")] =
      pure [some b!"model x end x;", some b!"package L end L;", some b!"model x end x;"] ∧
    encryptAllH (toyEnv []) none (exLib.map fun j => (megabyte, j)) =
      pure (some (outsOf (toyEnv []) exLib)) := by
  constructor <;> decide +kernel

/-- **C86 fails** when memory runs out: instead of returning an error, the decryption of a package file (or
the encryption of one) ends the program. -/
theorem c86_memory_not :
    (∃ (e : CrEnv) (content : Bytes), GoodEnv e ∧
      crDecryptH e (fun _ => false) none b!"package.moc" content = Prog.exit ∧
      ∃ t n out, crDecrypt e [] b!"package.moc" content = .ok (t, n, out) ∧ 0 < n) ∧
    ∃ (e : CrEnv), GoodEnv e ∧ crEncryptH e (fun _ => false) none b!"package.mo" toyIv (fun _ => toyMask 1)
      b!"package L end L;" false (fun _ => true) = Prog.exit := by
  refine ⟨⟨toyEnv [], ((outsOf (toyEnv []) exLib).headD ([], [])).2, toyEnv_good _, by decide +kernel,
    [(b!"/", toyMask 1)], 16, b!"package L end L;" ++ toyMask 1, by decide +kernel, by decide⟩,
    toyEnv [], toyEnv_good _, by decide +kernel⟩

end Semla.Props

import Verif.Lemmas.FullDisk
import Verif.Props.EncryptFile

/-!
# C92: success of the single-file tools on a disk that fills up

`perfect v` is the same machine without failing writes; what its runs produce is the subject of C49, C54 and C55.
-/

set_option linter.unusedSimpArgs false

namespace Semla.Props

open Semla Semla.Spec

/-- **C92, full statement.** Whatever the room on the disk, the buffering and the memory: a tool that exits with 0 has
left the files that it leaves on a machine without failures. -/
def c92_full : Prop :=
  ∀ (v : FileToolEnv) (d : OutDisk) (ctx : Bool) (fs fs' : Files) (args : List Bytes),
    (encryptFileDisk v d ctx fs args = .ok (0, fs') → encryptFileMain (perfect v) fs args = .ok (0, fs')) ∧
    (decryptFileDisk v d ctx fs args = .ok (0, fs') → decryptFileMain (perfect v) fs args = .ok (0, fs'))

/-- **C92, encryption, partial.** If `encrypt_file` exits with 0, it would have done so without failures, and the files
are those it would have left, except that the encrypted file is cut where the disk was full.  No more is missing than
the C library keeps in its buffer.

Missing: the end of the file, `c92_encrypt_not`. -/
theorem c92_encrypt_partial (v : FileToolEnv) (d : OutDisk) (b : Nat) (hb : ∀ i, d.kept i ≤ b) (ctx : Bool)
    (fs fs' : Files) (args : List Bytes) (h : encryptFileDisk v d ctx fs args = .ok (0, fs')) :
    ∃ fs0, encryptFileMain (perfect v) fs args = .ok (0, fs0) ∧ CutAt (encryptOutput args) d.room b fs0 fs' := by
  unfold encryptFileDisk at h
  split at h
  · rename_i inName target destdir
    split at h
    · simp at h
    · rename_i content hc
      split at h
      · simp at h
      · rename_i ht
        simp only at h
        rw [Res.bind_eq_ok] at h
        obtain ⟨⟨t, k, f⟩, h1, h2⟩ := h
        simp only at h2
        split at h2
        · simp at h2
        · rename_i hne
          have hctx : ctx = true := by
            cases ctx with
            | true => rfl
            | false =>
              unfold encryptToDisk at h2
              split at h2
              · simp at h2
              · rw [Res.bind_eq_ok] at h2
                obtain ⟨⟨out, ok⟩, h3, h4⟩ := h2
                unfold crEncryptDisk at h3
                split at h3
                · simp only [Res.ok.injEq, Prod.mk.injEq] at h3
                  obtain ⟨-, rfl⟩ := h3
                  simp at h4
                · simp at h3
          subst hctx
          obtain ⟨fs0, h3, h4⟩ := encryptToDisk_zero hb h2
          refine ⟨fs0, ?_, h4⟩
          simp only [demaskWith, if_true] at h1
          have h1' : demaskKey ((perfect v).context fs destdir) (demaskFuel target) [] target (perfect v).junk =
            .ok (t, k, f) := h1
          simp only [encryptFileMain, hc, ht, if_false, h1', Res.bind_ok, hne]
          exact h3
  · rename_i inName target
    split at h
    · simp at h
    · rename_i content hc
      split at h
      · simp at h
      · rename_i ht
        split at h
        · simp at h
        · rename_i hne
          simp only at h
          obtain ⟨fs0, h3, h4⟩ := encryptToDisk_zero hb h
          refine ⟨fs0, ?_, h4⟩
          simp only [encryptFileMain, hc, ht, if_false, hne]
          exact h3
  · simp at h

/-- **C92, decryption, partial.** If `decrypt_file` had memory for its context and exits with 0, it would have done so
without failures, and the files are those it would have left, except that the decrypted file is cut where the disk was
full.  No more is missing than the C library keeps in its buffer.

Missing: the end of the file, `c92_decrypt_not`, and a run without memory, `c92_memory_not`. -/
theorem c92_decrypt_partial (v : FileToolEnv) (d : OutDisk) (b : Nat) (hb : ∀ i, d.kept i ≤ b)
    (fs fs' : Files) (dir rel outName : Bytes) (more : List Bytes)
    (h : decryptFileDisk v d true fs (dir :: rel :: outName :: more) = .ok (0, fs')) :
    ∃ fs0, decryptFileMain (perfect v) fs (dir :: rel :: outName :: more) = .ok (0, fs0) ∧
      CutAt outName d.room b fs0 fs' := by
  simp only [decryptFileDisk] at h
  split at h
  · simp at h
  · rename_i c hc
    split at h
    · simp at h
    · rename_i hw
      simp only [demaskWith, if_true] at h
      rw [Res.bind_eq_ok] at h
      obtain ⟨⟨t, key, flag⟩, h1, h⟩ := h
      simp only at h
      rw [Res.bind_eq_ok] at h
      obtain ⟨⟨t', n, out⟩, h2, h⟩ := h
      simp only at h
      split at h
      · rename_i hok
        simp only [Res.ok.injEq, Prod.mk.injEq, true_and] at h
        subst h
        obtain ⟨h3, h4⟩ := diskWrites_true hb (n := 0) (o := (diskWrites d 0 0 [out.take n.toNat]).1)
          (Nat.zero_le _) (by rw [← hok.2])
        rw [h3]
        simp only [List.flatten_cons, List.flatten_nil, List.append_nil] at h3 ⊢
        refine ⟨fs.set outName (some (out.take n.toNat)), ?_, cut_set (by rw [h3] at h4; omega)⟩
        have h1' : demaskKey ((perfect v).context (fs.set outName (some [])) dir) (demaskFuel rel) [] rel
          (perfect v).key = .ok (t, key, flag) := h1
        have h2' : decryptFileMain.decryptTailStatic ((perfect v).context (fs.set outName (some [])) dir) t rel key flag
          (((fs.set outName (some [])) (snprintf 4096 (dir ++ b!"/" ++ rel))).getD [] |>.take decryptBufSize) =
            .ok (t', n, out) := h2
        have hw' : (perfect v).writable outName = true := by simpa [perfect] using hw
        simp only [decryptFileMain, hc, hw', not_true_eq_false, if_false, h1', Res.bind_ok, h2']
        have : (0 ≤ n ∧ (n = 0 ∨ (perfect v).wOk 0 = true)) := ⟨hok.1, .inr rfl⟩
        rw [if_pos this]
      · simp at h

/-- **C92, with room.** If the disk takes the whole output, a tool that would exit with 0 without failures does so, and
leaves the same files. -/
theorem c92_room (v : FileToolEnv) (d : OutDisk) (fs fs0 : Files) (out : Bytes) (hl : out.length ≤ d.room) :
    (∀ args, encryptFileMain (perfect v) fs args = .ok (0, fs0) → fs0 (encryptOutput args) = some out →
      encryptFileDisk v d true fs args = .ok (0, fs0)) ∧
    (∀ dir rel outName more, decryptFileMain (perfect v) fs (dir :: rel :: outName :: more) = .ok (0, fs0) →
      fs0 outName = some out → decryptFileDisk v d true fs (dir :: rel :: outName :: more) = .ok (0, fs0)) := by
  refine ⟨fun args h ho => ?_, fun dir rel outName more h ho => ?_⟩
  · unfold encryptFileMain at h
    split at h
    · rename_i inName target destdir
      split at h
      · simp at h
      · rename_i content hc
        split at h
        · simp at h
        · rename_i ht
          simp only at h
          rw [Res.bind_eq_ok] at h
          obtain ⟨⟨t, k, f⟩, h1, h2⟩ := h
          simp only at h2
          split at h2
          · simp at h2
          · rename_i hne
            have h3 := encryptToDisk_room (d := d) h2 ho hl
            have h1' : demaskKey (v.context fs destdir) (demaskFuel target) [] target v.junk = .ok (t, k, f) := h1
            simp only [encryptFileDisk, demaskWith, hc, ht, if_false, if_true, h1', Res.bind_ok, hne]
            exact h3
    · rename_i inName target
      split at h
      · simp at h
      · rename_i content hc
        split at h
        · simp at h
        · rename_i ht
          split at h
          · simp at h
          · rename_i hne
            simp only at h
            have h3 := encryptToDisk_room (d := d) h ho hl
            simp only [encryptFileDisk, demaskWith, hc, ht, if_false, hne]
            exact h3
    · simp at h
  · simp only [decryptFileMain] at h
    split at h
    · simp at h
    · rename_i c hc
      split at h
      · simp at h
      · rename_i hw
        rw [Res.bind_eq_ok] at h
        obtain ⟨⟨t, key, flag⟩, h1, h⟩ := h
        simp only at h
        rw [Res.bind_eq_ok] at h
        obtain ⟨⟨t', n, o⟩, h2, h⟩ := h
        simp only at h
        split at h
        · rename_i hok
          simp only [Res.ok.injEq, Prod.mk.injEq, true_and] at h
          subst h
          simp only [Files.set, if_true, Option.some.injEq] at ho
          have hd : diskWrites d 0 0 [o.take n.toNat] = (o.take n.toNat, true) := by
            rw [diskWrites_room (by simpa [ho] using hl)]
            simp
          have h1' : demaskKey (v.context (fs.set outName (some [])) dir) (demaskFuel rel) [] rel
            v.key = .ok (t, key, flag) := h1
          have h2' : decryptFileMain.decryptTailStatic (v.context (fs.set outName (some [])) dir) t rel key flag
            (((fs.set outName (some [])) (snprintf 4096 (dir ++ b!"/" ++ rel))).getD [] |>.take decryptBufSize) =
              .ok (t', n, o) := h2
          have hw' : v.writable outName = true := by simpa [perfect] using hw
          simp only [decryptFileDisk, demaskWith, hc, hw', not_true_eq_false, if_false, if_true, h1', Res.bind_ok, h2', hd]
          rw [if_pos ⟨hok.1, trivial⟩, closed_all (by rw [ho]; exact hl)]
        · simp at h

/-- **C92, refusals.** What a tool refuses to do on a machine without failures, it refuses in the same way, with the same
status and the same files, whatever the room on the disk. -/
theorem c92_refused (v : FileToolEnv) (d : OutDisk) (fs fs0 : Files) (n : Nat) (hn : n ≠ 0) (args : List Bytes) :
    (encryptFileMain (perfect v) fs args = .ok (n, fs0) → encryptFileDisk v d true fs args = .ok (n, fs0)) ∧
    (decryptFileMain (perfect v) fs args = .ok (n, fs0) → decryptFileDisk v d true fs args = .ok (n, fs0)) := by
  refine ⟨fun h => ?_, fun h => ?_⟩
  · unfold encryptFileMain at h
    split at h
    · rename_i inName target destdir
      unfold encryptFileDisk
      dsimp only
      cases hc : fs inName with
      | none => rw [hc] at h; exact h
      | some content =>
        rw [hc] at h
        dsimp only at h ⊢
        split at h
        · simp at h
        · rename_i ht
          rw [Res.bind_eq_ok] at h
          obtain ⟨⟨t, k, f⟩, h1, h2⟩ := h
          simp only at h2
          split at h2
          · simp at h2
          · rename_i hne
            have h3 := encryptToDisk_refused (d := d) hn h2
            have h1' : demaskKey (v.context fs destdir) (demaskFuel target) [] target v.junk = .ok (t, k, f) := h1
            simp only [demaskWith, ht, if_false, if_true, h1', Res.bind_ok, hne]
            exact h3
    · rename_i inName target
      unfold encryptFileDisk
      dsimp only
      cases hc : fs inName with
      | none => rw [hc] at h; exact h
      | some content =>
        rw [hc] at h
        dsimp only at h ⊢
        split at h
        · simp at h
        · rename_i ht
          split at h
          · simp at h
          · rename_i hne
            rw [if_neg ht, if_neg hne]
            exact encryptToDisk_refused (d := d) hn h
    · rename_i h3 h2
      unfold encryptFileDisk
      split
      · exact absurd rfl (h3 _ _ _)
      · exact absurd rfl (h2 _ _)
      · exact h
  · unfold decryptFileMain at h
    split at h
    · rename_i dir rel outName more
      unfold decryptFileDisk
      dsimp only at h ⊢
      cases hc : fs (snprintf 4096 (dir ++ b!"/" ++ rel)) with
      | none => rw [hc] at h; exact h
      | some c =>
        rw [hc] at h
        dsimp only at h ⊢
        split at h
        · rename_i hw
          have hw' : ¬ v.writable outName = true := hw
          rw [if_pos hw']
          exact h
        · rename_i hw
          have hw' : ¬ ¬ v.writable outName = true := hw
          rw [if_neg hw']
          rw [Res.bind_eq_ok] at h
          obtain ⟨⟨t, key, flag⟩, h1, h⟩ := h
          simp only at h
          rw [Res.bind_eq_ok] at h
          obtain ⟨⟨t', k, o⟩, h2, h⟩ := h
          simp only at h
          have h1' : demaskKey (v.context (fs.set outName (some [])) dir) (demaskFuel rel) [] rel
            v.key = .ok (t, key, flag) := h1
          have h2' : decryptFileMain.decryptTailStatic (v.context (fs.set outName (some [])) dir) t rel key flag
            (((fs.set outName (some [])) (snprintf 4096 (dir ++ b!"/" ++ rel))).getD [] |>.take decryptBufSize) =
              .ok (t', k, o) := h2
          simp only [demaskWith, if_true, h1', Res.bind_ok, h2']
          split at h
          · simp only [Res.ok.injEq, Prod.mk.injEq] at h
            exact absurd h.1.symm hn
          · rename_i hk
            rw [if_neg (fun hx => hk ⟨hx.1, Or.inr rfl⟩)]
            exact h
    · rename_i h3
      unfold decryptFileDisk
      split
      · exact absurd rfl (h3 _ _ _ _)
      · exact h

/-- **C92, failure.** If a tool exits with another status, the files are as they were, or the output file does not
exist: the part of it that the disk took is removed. -/
theorem c92_failure (v : FileToolEnv) (d : OutDisk) (ctx : Bool) (fs fs' : Files) (n : Nat) (hn : n ≠ 0) :
    (∀ args, encryptFileDisk v d ctx fs args = .ok (n, fs') → fs' = fs ∨ fs' = fs.set (encryptOutput args) none) ∧
    (∀ dir rel outName more, decryptFileDisk v d ctx fs (dir :: rel :: outName :: more) = .ok (n, fs') →
      fs' = fs ∨ fs' = fs.set outName none) := by
  refine ⟨fun args h => ?_, fun dir rel outName more h => ?_⟩
  · unfold encryptFileDisk at h
    split at h
    · split at h
      · simp only [Res.ok.injEq, Prod.mk.injEq] at h; exact .inl h.2.symm
      · split at h
        · simp at h
        · simp only at h
          rw [Res.bind_eq_ok] at h
          obtain ⟨⟨t, k, f⟩, h1, h2⟩ := h
          simp only at h2
          split at h2
          · simp at h2
          · exact encryptToDisk_fails h2 hn
    · split at h
      · simp only [Res.ok.injEq, Prod.mk.injEq] at h; exact .inl h.2.symm
      · split at h
        · simp at h
        · split at h
          · simp at h
          · exact encryptToDisk_fails h hn
    · simp only [Res.ok.injEq, Prod.mk.injEq] at h; exact .inl h.2.symm
  · simp only [decryptFileDisk] at h
    split at h
    · simp only [Res.ok.injEq, Prod.mk.injEq] at h
      obtain ⟨-, rfl⟩ := h
      split
      · exact .inr rfl
      · exact .inl rfl
    · split at h
      · simp only [Res.ok.injEq, Prod.mk.injEq] at h; exact .inl h.2.symm
      · rw [Res.bind_eq_ok] at h
        obtain ⟨⟨t, key, flag⟩, -, h⟩ := h
        simp only at h
        rw [Res.bind_eq_ok] at h
        obtain ⟨⟨t', m, out⟩, -, h⟩ := h
        simp only at h
        split at h
        · simp only [Res.ok.injEq, Prod.mk.injEq] at h; exact absurd h.1.symm hn
        · simp only [Res.ok.injEq, Prod.mk.injEq] at h; exact .inr h.2.symm

/-- A disk with room for some bytes, and a C library with a buffer of 4096 bytes. -/
def smallDisk (room : Nat) : OutDisk := ⟨room, fun _ => 4096⟩

/-- **C92, decryption, negation.** On a disk with room for 5 bytes `decrypt_file` exits with 0; the output file holds the
first 5 bytes of the contents. -/
theorem c92_decrypt_not : ∃ fs',
    decryptFileDisk (toyTool 9) (smallDisk 5) true exDisk [b!"/l", b!"A/x.moc", b!"/out"] = .ok (0, fs') ∧
    fs' b!"/out" = some b!"model" ∧
    ∃ fs0, decryptFileMain (toyTool 9) exDisk [b!"/l", b!"A/x.moc", b!"/out"] = .ok (0, fs0) ∧
      fs0 b!"/out" = some b!"model x end x;" :=
  ⟨_, runOf_eq (n := 0) (by decide +kernel), by decide +kernel, _, runOf_eq (n := 0) (by decide +kernel),
    by decide +kernel⟩

/-- **C92, encryption, negation.** On a disk with room for 50 bytes `encrypt_file` exits with 0; the file it has added
to the library can then not be decrypted. -/
theorem c92_encrypt_not : ∃ fs',
    encryptFileDisk (toyTool 9) (smallDisk 50) true exDisk [b!"/src/new.mo", b!"A/new.moc", b!"/l"] = .ok (0, fs') ∧
    (∃ fs2, decryptFileMain (toyTool 9) fs' [b!"/l", b!"A/new.moc", b!"/out"] = .ok (1, fs2)) ∧
    ∃ fs0, encryptFileMain (toyTool 9) exDisk [b!"/src/new.mo", b!"A/new.moc", b!"/l"] = .ok (0, fs0) ∧
      ∃ fs2, decryptFileMain (toyTool 9) fs0 [b!"/l", b!"A/new.moc", b!"/out"] = .ok (0, fs2) ∧
        fs2 b!"/out" = some b!"model new end new;" :=
  ⟨_, runOf_eq (n := 0) (by decide +kernel), ⟨_, runOf_eq (n := 1) (by decide +kernel)⟩, _,
    runOf_eq (n := 0) (by decide +kernel), _, runOf_eq (n := 0) (by decide +kernel), by decide +kernel⟩

/-- **C92, memory, negation.** Without memory for the context `decrypt_file` exits with 0 for the package file of the
library; behind the contents, the output file has the key mask of the library, which is secret. -/
theorem c92_memory_not : ∃ fs' mask,
    decryptFileDisk (toyTool 9) (smallDisk 4096) false exDisk [b!"/l", b!"package.moc", b!"/out"] = .ok (0, fs') ∧
    fs' b!"/out" = some (exLib[0].plain ++ mask) ∧ mask = exLib[0].mask ∧ mask.length = 32 :=
  ⟨_, _, runOf_eq (n := 0) (by decide +kernel), by decide +kernel, rfl, by decide +kernel⟩

-- non-vacuity of `c92_encrypt_partial` and `c92_decrypt_partial`: runs that exit with 0 on a disk without enough room
example : ∃ fs' fs0,
    encryptFileDisk (toyTool 9) (smallDisk 50) true exDisk [b!"/src/new.mo", b!"A/new.moc", b!"/l"] = .ok (0, fs') ∧
    encryptFileMain (perfect (toyTool 9)) exDisk [b!"/src/new.mo", b!"A/new.moc", b!"/l"] = .ok (0, fs0) ∧
    CutAt b!"/l/A/new.moc" 50 4096 fs0 fs' := by
  obtain ⟨fs', h, -⟩ := c92_encrypt_not
  obtain ⟨fs0, h1, h2⟩ := c92_encrypt_partial _ _ 4096 (fun _ => Nat.le_refl _) _ _ _ _ h
  exact ⟨fs', fs0, h, h1, h2⟩

example : ∃ fs' fs0,
    decryptFileDisk (toyTool 9) (smallDisk 5) true exDisk [b!"/l", b!"A/x.moc", b!"/out"] = .ok (0, fs') ∧
    CutAt b!"/out" 5 4096 fs0 fs' := by
  obtain ⟨fs', h, -⟩ := c92_decrypt_not
  obtain ⟨fs0, -, h2⟩ := c92_decrypt_partial _ _ 4096 (fun _ => Nat.le_refl _) _ _ _ _ _ _ h
  exact ⟨fs', fs0, h, h2⟩

-- non-vacuity of `c92_room`: 14 bytes fit
example : ∃ fs0, decryptFileDisk (toyTool 9) (smallDisk 14) true exDisk [b!"/l", b!"A/x.moc", b!"/out"] = .ok (0, fs0) ∧
    fs0 b!"/out" = some b!"model x end x;" := by
  obtain ⟨-, -, -, fs0, h1, h2⟩ := c92_decrypt_not
  exact ⟨fs0, (c92_room (toyTool 9) (smallDisk 14) exDisk fs0 _ (by decide)).2 _ _ _ _ h1 h2, h2⟩

-- non-vacuity of `c92_failure`: without a buffer, the tools notice that the disk is full
example : ∃ fs' fs2, encryptFileDisk (toyTool 9) ⟨50, fun _ => 0⟩ true exDisk [b!"/src/new.mo", b!"A/new.moc", b!"/l"] =
      .ok (1, fs') ∧ fs' b!"/l/A/new.moc" = none ∧
    decryptFileDisk (toyTool 9) ⟨5, fun _ => 0⟩ true exDisk [b!"/l", b!"A/x.moc", b!"/out"] = .ok (1, fs2) ∧
      fs2 b!"/out" = none :=
  ⟨_, _, runOf_eq (n := 1) (by decide +kernel), by decide +kernel, runOf_eq (n := 1) (by decide +kernel),
    by decide +kernel⟩

-- non-vacuity of `c92_refused`: an output file that cannot be opened, and a source file that does not exist
example : encryptFileDisk { toyTool 9 with writable := fun _ => false } (smallDisk 50) true exDisk
      [b!"/src/new.mo", b!"/l/A/new.moc"] = .ok (2, exDisk) ∧
    encryptFileDisk (toyTool 9) (smallDisk 50) true exDisk [b!"/src/no.mo", b!"A/new.moc", b!"/l"] = .ok (1, exDisk) := by
  refine ⟨(c92_refused _ _ _ _ 2 (by decide) _).1 ?_, (c92_refused _ _ _ _ 1 (by decide) _).1 rfl⟩
  rfl

theorem c92_full_not : ¬ c92_full := by
  intro h
  obtain ⟨fs', h1, h2, fs0, h3, h4⟩ := c92_decrypt_not
  have h5 := (h _ _ _ _ _ _).2 h1
  have h6 : perfect (toyTool 9) = toyTool 9 := rfl
  rw [h6, h3] at h5
  injection h5 with h5
  injection h5 with h5 h7
  rw [← h7, h4] at h2
  revert h2
  decide

end Semla.Props

import Verif.Lemmas.CrLog
import Verif.Props.LveFile

/-!
# The log names files and tells no secrets (C71)
-/

namespace Semla.Props

open Semla Semla.Spec

/-- What a session logs, from the start. -/
def sessionLog (debug : Bool) (conf : LveConf) (k : Option Bytes) (turns : List (World × Bytes)) : List Bytes :=
  match lveStart conf k with
  | .ok st => runLog debug conf st turns
  | .ub _ => []

/-- **C71, vendor executable (release builds).** Whatever build, keys, tool, messages, files and license manager:
every message in the log of a session is one of the fixed texts around a path that was asked for in this session
by a FILE command, a part of such a path, or a package file on the way to it.  So the log has no byte of a key, a
key mask or a file.

Missing: builds with `DEBUG` or `_DEBUG` defined, for which the claim is false (`c71_debug_not`). -/
theorem c71_session_partial {conf : LveConf} {k : Option Bytes} {turns : List (World × Bytes)} {line : Bytes}
    (h : line ∈ sessionLog false conf k turns) : ∃ t ∈ turns, ∃ p, AsksFor t.2 p ∧ Harmless p line := by
  unfold sessionLog at h
  split at h
  · exact runLog_from _ _ h
  · simp at h

/-- **C71, encryption (release builds).** Whatever is encrypted with whatever key and drawn masks, the messages on
standard error that are about the key have the path of the file or of a directory on the way to it, and nothing
else.

Missing: as in `c71_session_partial`. -/
theorem c71_encrypt_partial {e : CrEnv} {t : MaskTable} {p line : Bytes} {rand : Bytes → Bytes} {wOk : Nat → Bool}
    (h : line ∈ crEncryptLog false e t p rand wOk) : Harmless p line := crEncryptLog_harmless h

/-- **C71, decryption (release builds).** The same for the `decrypt_file` tool. -/
theorem c71_decrypt_partial {e : CrEnv} {t : MaskTable} {p content line : Bytes}
    (h : line ∈ crDecryptLog false e t p content) : Harmless p line := crDecryptLog_harmless h

/-- The session of the examples: a file of the encrypted library and a plain one. -/
def logTurns : List (World × Bytes) := inWorld lib2
  [b!"VERSION 1\n", b!"LIB 2\n/l", b!"FILE 7\nA/x.moc", b!"FILE 8\nicon.png", b!"FILE 7\nA/x.moc"]

-- what such a session logs: first the masks are fetched from the package files, then they are there
example : sessionLog false (toyConf [b!"k"] none generous) (some b!"k") logTurns =
    [b!"mlle_demask_key: A/x.moc\n", b!"mlle_demask_key: A/package.moc\n", b!"mlle_demask_key: A\n",
     b!"mlle_demask_key: package.moc\n", b!"mlle_store_keymask: stored key_mask for package.moc \n",
     b!"mlle_demask_key: applied mask for A\n", b!"mlle_store_keymask: stored key_mask for A/package.moc \n",
     b!"mlle_demask_key: applied mask for A/x.moc\n", b!"mlle_demask_key: A/x.moc\n",
     b!"mlle_demask_key: applied mask for A/x.moc\n"] := by decide +kernel

example : ∃ p, AsksFor b!"FILE 7\nA/x.moc" p ∧ Harmless p b!"mlle_demask_key: applied mask for A/x.moc\n" := by
  obtain ⟨t, ht, p, h1, h2⟩ := c71_session_partial (conf := toyConf [b!"k"] none generous) (k := some b!"k")
    (turns := logTurns.take 3) (line := b!"mlle_demask_key: applied mask for A/x.moc\n") (by decide +kernel)
  refine ⟨p, ?_, h2⟩
  simp only [logTurns, inWorld, List.map_cons, List.map_nil, List.take, List.mem_cons, List.not_mem_nil, or_false] at ht
  rcases ht with rfl | rfl | rfl
  · obtain ⟨⟨n, len, ha⟩, -⟩ := h1
    have := parse_of_accepts ha 100 []
    simp [show parseCommand 100 b!"VERSION 1\n" [] = .ok (.valid, ⟨.version, 1, 0, none⟩, []) from by rfl] at this
  · obtain ⟨⟨n, len, ha⟩, -⟩ := h1
    have := parse_of_accepts ha 100 []
    simp [show parseCommand 100 b!"LIB 2\n/l" [] = .ok (.valid, ⟨.lib, 0, 2, none⟩, []) from by rfl] at this
  · exact h1

-- the key of the example library is no harmless message, and encryption logs something
example : ¬ Harmless b!"A/x.moc" b!"key: 00:01:02\n" := by
  rintro ⟨t, ht, q, -, h⟩
  simp only [logTexts, List.mem_cons, List.not_mem_nil, or_false] at ht
  rcases ht with rfl | rfl | rfl | rfl | rfl | rfl | rfl <;> simp at h

example : crEncryptLog false (toyEnv []) [] b!"A/x.mo" (fun _ => toyMask 3) (fun _ => true) =
    [b!"mlle_mask_key: got key for A/x.mo \n", b!"mlle_mask_key: got key for A \n",
     b!"mlle_mask_key: storing mask based on parent for / \n", b!"mlle_mask_key: applied key mask for A \n",
     b!"mlle_mask_key: storing mask based on parent for A \n", b!"mlle_mask_key: applied key mask for A/x.mo \n"] := by
  decide +kernel

example : crDecryptLog false (toyEnv (outsOf (toyEnv []) exLib)) [] b!"package.moc" ((outsOf (toyEnv []) exLib)[0]!.2) =
    [b!"mlle_demask_key: package.moc\n", b!"mlle_store_keymask: stored key_mask for package.moc \n"] := by
  decide +kernel

/-- **C71, negation for debug builds.** If `DEBUG` or `_DEBUG` was defined when the vendor executable was built,
the log of any session that decrypts a file has the key of the vendor (here the bytes 0 to 31). -/
theorem c71_debug_not : (toyConf [b!"k"] none generous).key = (List.range 32).map UInt8.ofNat ∧
    b!"key: 00:01:02:03:04:05:06:07:08:09:0A:0B:0C:0D:0E:0F:10:11:12:13:14:15:16:17:18:19:1A:1B:1C:1D:1E:1F\n" ∈
      sessionLog true (toyConf [b!"k"] none generous) (some b!"k") logTurns := by decide +kernel

end Semla.Props

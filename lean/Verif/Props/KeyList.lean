import Verif.Lemmas.KeyList
import Verif.Props.BuildTools

/-!
# Properties of the list of tool keys

C82.
-/

namespace Semla.Props

open Semla Semla.Spec

/-- **C82, the table.** For every number of keys the generated `public_key_tool.h` reads as C: the number is right, and
each of the numbered headers is included, its array declared, pointed to, initialised and cleared, in order. -/
theorem c82_table (n : Nat) : readTable (keyTableText n) =
    some ⟨n, (List.range n).map keyHeader, (List.range n).map keyArray, (List.range n).map keyArray,
      (List.range n).map (fun i => keyArray i ++ b!"_LEN"), (List.range n).map keyArray,
      (List.range n).map keyArray⟩ := readTable_keyTableText n

example : keyTableText 2 = b!"#define PUBLIC_KEY_TOOL_NUM ( 2 )\n#include \"public_key_tool0.h\"\n#include \"public_key_tool1.h\"\n#define DECLARE_PUBLIC_KEY_TOOL()DECLARE_PUBLIC_KEY_TOOL0();DECLARE_PUBLIC_KEY_TOOL1();unsigned char* PUBLIC_KEY_TOOL[]={PUBLIC_KEY_TOOL0,PUBLIC_KEY_TOOL1,0}\n#define DECLARE_PUBLIC_KEY_TOOL_LEN() size_t PUBLIC_KEY_TOOL_LEN[]={PUBLIC_KEY_TOOL0_LEN,PUBLIC_KEY_TOOL1_LEN,0}\n#define INITIALIZE_PUBLIC_KEY_TOOL() do {INITIALIZE_PUBLIC_KEY_TOOL0();INITIALIZE_PUBLIC_KEY_TOOL1();} while (0)\n#define CLEAR_PUBLIC_KEY_TOOL() do {CLEAR_PUBLIC_KEY_TOOL0();CLEAR_PUBLIC_KEY_TOOL1();} while (0)\n" := by
  decide +kernel

theorem mapM_some {α β γ : Type} {f : β → Option γ} {g : α → β} {h : α → γ} (l : List α)
    (hf : ∀ x ∈ l, f (g x) = some (h x)) : (l.map g).mapM f = some (l.map h) := by
  induction l with
  | nil => rfl
  | cons x xs ih =>
    rw [List.map_cons, List.mapM_cons, hf x (by simp), ih fun y hy => hf y (by simp [hy])]
    rfl

theorem findSome_range {γ : Type} {f : Bytes → Option γ} {g : Nat → Bytes} {n k : Nat} {v : γ} (hk : k < n)
    (hv : f (g k) = some v) (ho : ∀ j, j < n → j ≠ k → f (g j) = none) :
    ((List.range n).map g).findSome? f = some v := by
  rw [List.findSome?_map]
  have : List.findSome? (f ∘ g) (List.range n) = some v := by
    rw [List.findSome?_eq_some_iff]
    refine ⟨List.range k, k, (List.range (n - k - 1)).map (k + 1 + ·), ?_, hv, fun a ha => ?_⟩
    · conv => lhs; rw [show n = k + (1 + (n - k - 1)) by omega, List.range_add, List.range_add]
      simp [List.range_succ, Nat.add_assoc]
    · have := List.mem_range.1 ha
      exact ho a (by omega) (by omega)
  exact this

theorem cmakeLength_pos {lines : List Bytes} (h : cmakeLength lines ≠ 0) : cmakeLength lines = lines.length := by
  unfold cmakeLength at *
  split at h
  · exact absurd rfl h
  · rename_i hl; simp [hl]

/-- What is in the build directory after a build whose headers can be compiled: the number of keys is the number of
elements of the list, and each of them has its header. -/
theorem build_compiles {env : BuildEnv} {bin keys text : Bytes} {d d' : BuildDir}
    (hd : NoBlank text ∨ ∀ f, b!"public_key_tool" <+: f → d f = none)
    (hb : buildKeys env bin keys text d = .ok (some d')) {e : Embedded} (he : embed d' = some e) :
    let items := (cmakeStrings [] text).filter fun l => l ≠ []
    d' b!"public_key_tool.h" = some (keyTableText items.length) ∧
    ∀ k (h : k < items.length), ∃ t, obfuscateMain env [bin ++ b!"/" ++ keyHeader k, keys ++ b!"/" ++ items[k],
      keyArray k, b!"TOOL_PUBLIC"] = .ok ⟨0, some t⟩ ∧ d' (keyHeader k) = some t := by
  intro items
  unfold buildKeys at hb
  dsimp only at hb
  split at hb
  · cases hb
  · rename_i hn
    rw [Res.bind_eq_ok] at hb
    obtain ⟨o, hm, hb⟩ := hb
    cases o with
    | none => cases hb
    | some d1 =>
      simp only [Res.ok.injEq, Option.some.injEq] at hb
      subst hb
      have hlen := cmakeLength_pos hn
      obtain ⟨h1, h2⟩ := makeHeaders_ok hm
      have htab : ∀ n, (d1.put b!"public_key_tool.h" (keyTableText n)) b!"public_key_tool.h" = some (keyTableText n) :=
        fun n => by simp [BuildDir.put]
      have hput : ∀ n k, (d1.put b!"public_key_tool.h" (keyTableText n)) (keyHeader k) = d1 (keyHeader k) :=
        fun n k => by simp [BuildDir.put, keyHeader_ne_table k]
      have hcount : items.length = cmakeLength (cmakeStrings [] text) := by
        rw [hlen]
        rcases hd with hd | hd
        · have := noBlank_lines hd
          show (List.filter _ _).length = _
          rw [List.filter_eq_self.2]
          intro x hx
          simp only [ne_eq, decide_not, Bool.not_eq_eq_eq_not, Bool.not_true, decide_eq_false_iff_not]
          rintro rfl
          exact this hx
        · have hle : items.length ≤ (cmakeStrings [] text).length := List.length_filter_le _ _
          rcases Nat.lt_or_eq_of_le hle with hlt | heq
          · exfalso
            unfold embed at he
            rw [htab] at he
            simp only [Option.bind_eq_bind, Option.bind_some, readTable_keyTableText] at he
            split at he
            · rename_i hall
              rw [List.all_eq_true] at hall
              have := hall (keyHeader items.length) (List.mem_map.2 ⟨items.length, List.mem_range.2 (by omega), rfl⟩)
              rw [hput, h2 _ (fun k hk heq => by
                  rw [Nat.zero_add] at heq
                  have hk' : k < items.length := hk
                  have := keyHeader_inj heq; omega),
                hd _ ⟨decNat items.length ++ b!".h", by simp [keyHeader]⟩] at this
              cases this
            · cases he
          · exact heq
      refine ⟨by rw [htab, hcount], fun k hk => ?_⟩
      obtain ⟨t, ht1, ht2⟩ := h1 k hk
      rw [Nat.zero_add] at ht1 ht2
      exact ⟨t, ht1, by rw [hput]; exact ht2⟩

/-- The headers in the build directory, compiled: one array for each of the key files, in order. -/
theorem embed_of_headers {env : BuildEnv} (hk : env.kept = none) {bin keys : Bytes} {items : List Bytes} {d' : BuildDir}
    (htab : d' b!"public_key_tool.h" = some (keyTableText items.length))
    (hh : ∀ k (h : k < items.length), ∃ t, obfuscateMain env [bin ++ b!"/" ++ keyHeader k, keys ++ b!"/" ++ items[k],
      keyArray k, b!"TOOL_PUBLIC"] = .ok ⟨0, some t⟩ ∧ d' (keyHeader k) = some t) :
    ∃ jobs : List Job, (∀ j ∈ jobs, j.Done env) ∧ jobs.map (·.file) = items.map (keys ++ b!"/" ++ ·) ∧
      embed d' = some ⟨items.length, (jobs.map (·.macros.array)).map some ++ [none]⟩ := by
  let job (k : Nat) : Job :=
    ⟨bin ++ b!"/" ++ keyHeader k, keys ++ b!"/" ++ (items[k]?).getD [], keyArray k,
      (env.content (keys ++ b!"/" ++ (items[k]?).getD [])).getD [],
      (macrosFor d' ((List.range items.length).map keyHeader) (keyArray k)).getD ⟨0, 0, []⟩⟩
  have hjob : ∀ k, k < items.length → (job k).Done env ∧
      macrosFor d' ((List.range items.length).map keyHeader) (keyArray k) = some (job k).macros ∧
      env.content (job k).file = some (job k).content := by
    intro k hk'
    obtain ⟨t, ht1, ht2⟩ := hh k hk'
    obtain ⟨_, _, _, _, n, c, ha, g1, g2, g3, g4⟩ := obfuscate_ok hk ht1
    simp only [List.cons.injEq, and_true] at ha
    obtain ⟨rfl, rfl, rfl, -⟩ := ha
    have hc : env.content (job k).file = some (job k).content := by
      simp only [job, List.getElem?_eq_getElem hk', Option.getD_some, g2]
    obtain ⟨m, hm⟩ : ∃ m, readHeader (keyArray k) t = some m := by
      rw [g4]; exact ⟨_, readHeader_headerText (keyArray_ident k) _⟩
    have hmac : macrosFor d' ((List.range items.length).map keyHeader) (keyArray k) = some m := by
      refine findSome_range hk' (by rw [ht2]; exact hm) fun j hj hjk => ?_
      obtain ⟨t', hj1, hj2⟩ := hh j hj
      obtain ⟨_, _, _, _, n', c', ha', -, -, -, g4'⟩ := obfuscate_ok hk hj1
      simp only [List.cons.injEq, and_true] at ha'
      obtain ⟨-, -, rfl, -⟩ := ha'
      rw [hj2, Option.bind_some, g4']
      exact readHeader_other hjk _
    have hmj : (job k).macros = m := by simp only [job, hmac, Option.getD_some]
    refine ⟨⟨keyArray_ident k, hc, t, ?_, by rw [hmj]; exact hm⟩, by rw [hmj]; exact hmac, hc⟩
    simp only [job, List.getElem?_eq_getElem hk', Option.getD_some]
    exact ht1
  refine ⟨(List.range items.length).map job, ?_, ?_, ?_⟩
  · intro j hj
    obtain ⟨k, hk', rfl⟩ := List.mem_map.1 hj
    exact (hjob k (List.mem_range.1 hk')).1
  · refine List.ext_getElem (by simp) fun k h1 h2 => ?_
    have hk' : k < items.length := by simpa using h2
    simp [job, List.getElem?_eq_getElem hk']
  · show embed d' = _
    unfold embed
    rw [htab]
    simp only [Option.bind_eq_bind, Option.bind_some, readTable_keyTableText]
    rw [if_pos]
    · rw [mapM_some (h := fun k => (job k).macros.array)]
      · simp
      · intro k hk'
        have hk' := List.mem_range.1 hk'
        rw [(hjob k hk').2.1]
        have hmem : keyArray k ∈ (List.range items.length).map keyArray :=
          List.mem_map.2 ⟨k, List.mem_range.2 hk', rfl⟩
        simp only [Option.bind_some, if_pos hmem]
    · rw [List.all_eq_true]
      intro f hf
      obtain ⟨k, hk', rfl⟩ := List.mem_map.1 hf
      obtain ⟨t, -, ht⟩ := hh k (List.mem_range.1 hk')
      rw [ht]
      rfl

/-- Full statement: a vendor executable approves exactly the tools whose key file is named in the list from which it
was built, whatever the build directory contains. -/
def c82_trusts_full : Prop := ∀ (env : BuildEnv), env.kept = none →
  (∀ f c, env.content f = some c → env.stat f = some c.length ∧ (0 : UInt8) ∉ c) →
  ∀ bin keys text, PlainList text → ∀ d d', buildKeys env bin keys text d = .ok (some d') →
    ∀ e, embed d' = some e → ∀ key : Bytes, (0 : UInt8) ∉ key →
      ∃ b, keyLoop (some key) e.pointers 0 e.num = .ok b ∧
        (b = true ↔ ∃ f c, Listed text f ∧ env.content (keys ++ b!"/" ++ f) = some c ∧ unixText c = key)

/-- **C82.** For every list of key files: a vendor executable that was built from it, in a new build directory or from
a list without empty lines, approves exactly the tools whose key is in one of the listed files, and the comparison
stays in its arrays.
Missing: empty lines together with headers of an earlier build (`c82_stale_not`), and lost writes (`c73_lost_not`). -/
theorem c82_trusts_partial {env : BuildEnv} (hk : env.kept = none)
    (hs : ∀ f c, env.content f = some c → env.stat f = some c.length ∧ (0 : UInt8) ∉ c)
    {bin keys text : Bytes} (_hp : PlainList text) {d d' : BuildDir}
    (hd : NoBlank text ∨ ∀ f, b!"public_key_tool" <+: f → d f = none)
    (hb : buildKeys env bin keys text d = .ok (some d')) {e : Embedded} (he : embed d' = some e)
    {key : Bytes} (h0 : (0 : UInt8) ∉ key) :
    ∃ b, keyLoop (some key) e.pointers 0 e.num = .ok b ∧
      (b = true ↔ ∃ f c, Listed text f ∧ env.content (keys ++ b!"/" ++ f) = some c ∧ unixText c = key) := by
  obtain ⟨htab, hh⟩ := build_compiles hd hb he
  generalize hit : (cmakeStrings [] text).filter (fun l => l ≠ []) = items at htab hh
  obtain ⟨jobs, hdone, hfiles, hem⟩ := embed_of_headers hk htab hh
  rw [hem, Option.some.injEq] at he
  subst he
  have hlen : jobs.length = items.length := by simpa using congrArg List.length hfiles
  have hl := keyLoop_eq (some key) (jobs.map (·.macros.array)) []
  simp only [List.nil_append, List.length_nil, List.length_map, hlen] at hl
  rw [hl, c73_trusted hk (fun f c h => (hs f c h).1) _ (fun j hj => ⟨hdone j hj, (hs _ _ (hdone j hj).2.1).2⟩) h0]
  refine ⟨_, rfl, ?_⟩
  rw [decide_eq_true_eq]
  constructor
  · rintro ⟨j, hj, hu⟩
    have hm : j.file ∈ jobs.map (·.file) := List.mem_map.2 ⟨j, hj, rfl⟩
    rw [hfiles] at hm
    obtain ⟨f, hf, hfe⟩ := List.mem_map.1 hm
    exact ⟨f, _, (listed_iff _ _).1 (by rw [hit]; exact hf), by rw [hfe]; exact (hdone j hj).2.1, hu⟩
  · rintro ⟨f, c, hf, hc, hu⟩
    have hf := (listed_iff _ _).2 hf
    rw [hit] at hf
    have hm : keys ++ b!"/" ++ f ∈ items.map (keys ++ b!"/" ++ ·) := List.mem_map.2 ⟨f, hf, rfl⟩
    rw [← hfiles] at hm
    obtain ⟨j, hj, hje⟩ := List.mem_map.1 hm
    have := (hdone j hj).2.1
    rw [hje, hc, Option.some.injEq] at this
    exact ⟨j, hj, this ▸ hu⟩

/-- Two key files. -/
def keyBuild : BuildEnv := buildWith [(b!"k/a.pem", b!"A\n"), (b!"k/b.pem", b!"B\r\n")] none

theorem keyBuild_good : ∀ f c, keyBuild.content f = some c → keyBuild.stat f = some c.length ∧ (0 : UInt8) ∉ c := by
  intro f c h
  refine ⟨buildWith_stat _ _ f c h, ?_⟩
  simp only [keyBuild, buildWith, List.lookup] at h
  split at h
  · cases h; decide
  · split at h
    · cases h; decide
    · cases h

/-- A list without empty lines. -/
theorem twoLines_noBlank : NoBlank b!"a.pem\r\nb.pem" := by
  intro pre post h hp
  have key : ∀ n, n < 12 → ((b!"a.pem\nb.pem").take n = [] ∨ ((b!"a.pem\nb.pem").take n).getLast? = some 10) →
      ((b!"a.pem\nb.pem").drop n).head? ≠ some 10 := by decide
  rw [show withoutCr b!"a.pem\r\nb.pem" = b!"a.pem\nb.pem" by decide] at h
  have hlen := congrArg List.length h
  simp only [List.length_append, List.length_cons, List.length_nil] at hlen
  refine key pre.length (by omega) ?_ ?_
  · rw [h, List.take_left]; exact hp
  · rw [h, List.drop_left]; rfl

/-- **C82, the build works.** A list without empty lines that names a key file, all of them readable and not empty: the
headers are made, and compile. -/
theorem c82_builds {env : BuildEnv} (hk : env.kept = none) (hm : ∀ n, env.calloc n = true)
    (hw : ∀ f, env.canWrite f = true) {bin keys text : Bytes} (_hp : PlainList text) (hn : NoBlank text)
    (h1 : ∃ f, Listed text f) (hf : ∀ f, Listed text f → ∃ c, c ≠ [] ∧ env.content (keys ++ b!"/" ++ f) = some c ∧
      env.stat (keys ++ b!"/" ++ f) = some c.length) (d : BuildDir) :
    ∃ d' e, buildKeys env bin keys text d = .ok (some d') ∧ embed d' = some e := by
  have hmake : ∀ (fs : List Bytes), (∀ f ∈ fs, Listed text f) → ∀ i d, ∃ d', makeHeaders env bin keys i fs d = .ok (some d') := by
    intro fs
    induction fs with
    | nil => intro _ i d; exact ⟨d, rfl⟩
    | cons f fs ih =>
      intro hfs i d
      obtain ⟨c, hc0, hc, hst⟩ := hf f (hfs f (by simp))
      obtain ⟨t, ht, -⟩ := c73_obfuscate_succeeds (out := bin ++ b!"/" ++ keyHeader i) (name := keyArray i)
        (type := b!"TOOL_PUBLIC") hst hc hc0 (hm _) (hw _) hk (keyArray_ident i) (.inl rfl)
      simp only [makeHeaders, ht, Res.bind_ok]
      exact ih (fun f h => hfs f (by simp [h])) _ _
  have hblank := noBlank_lines hn
  have hitems : (cmakeStrings [] text).filter (fun l => l ≠ []) = cmakeStrings [] text := by
    rw [List.filter_eq_self]
    intro x hx
    simp only [ne_eq, decide_not, Bool.not_eq_eq_eq_not, Bool.not_true, decide_eq_false_iff_not]
    rintro rfl
    exact hblank hx
  obtain ⟨d1, hd1⟩ := hmake _ (fun f h => (listed_iff text f).1 h) 0 d
  have hlen : cmakeLength (cmakeStrings [] text) = (cmakeStrings [] text).length := by
    unfold cmakeLength
    rw [if_neg]
    intro he
    exact hblank (by rw [he]; simp)
  have hpos : (cmakeStrings [] text).length ≠ 0 := by
    obtain ⟨f, hf⟩ := h1
    have := (listed_iff text f).2 hf
    rw [hitems] at this
    exact fun h0 => by rw [List.length_eq_zero_iff.1 h0] at this; simp at this
  have hb : buildKeys env bin keys text d =
      .ok (some (d1.put b!"public_key_tool.h" (keyTableText (cmakeStrings [] text).length))) := by
    unfold buildKeys
    dsimp only
    rw [hlen, if_neg hpos, hd1]
    rfl
  obtain ⟨g1, -⟩ := makeHeaders_ok hd1
  rw [hitems] at g1
  obtain ⟨jobs, -, -, hem⟩ := embed_of_headers (d' := d1.put b!"public_key_tool.h" (keyTableText (cmakeStrings [] text).length))
    (bin := bin) (keys := keys) (items := cmakeStrings [] text) hk (by simp [BuildDir.put]) (fun k hk' => by
      obtain ⟨t, ht1, ht2⟩ := g1 k hk'
      rw [Nat.zero_add] at ht1 ht2
      exact ⟨t, ht1, by simp [BuildDir.put, keyHeader_ne_table k, ht2]⟩)
  exact ⟨_, _, hb, hem⟩

theorem twoLines_listed (f : Bytes) : Listed b!"a.pem\r\nb.pem" f ↔ f = b!"a.pem" ∨ f = b!"b.pem" := by
  rw [← listed_iff, show (cmakeStrings [] b!"a.pem\r\nb.pem").filter (fun l => l ≠ []) = [b!"a.pem", b!"b.pem"] by decide]
  simp

/-- The list is built and compiled; the tool with the second key is approved, one with another key is not. -/
example : ∃ d' e, buildKeys keyBuild b!"o" b!"k" b!"a.pem\r\nb.pem" (fun _ => none) = .ok (some d') ∧ embed d' = some e ∧
    keyLoop (some b!"B\n") e.pointers 0 e.num = .ok true ∧
    keyLoop (some b!"C\n") e.pointers 0 e.num = .ok false := by
  have hp : PlainList b!"a.pem\r\nb.pem" := by unfold PlainList FileChar; decide
  obtain ⟨d', e, hb, he⟩ := c82_builds (env := keyBuild) (bin := b!"o") (keys := b!"k") (text := b!"a.pem\r\nb.pem") rfl
    (fun _ => rfl) (fun _ => rfl) hp twoLines_noBlank ⟨b!"a.pem", (twoLines_listed _).2 (.inl rfl)⟩ (fun f hf => by
      rcases (twoLines_listed f).1 hf with rfl | rfl
      · exact ⟨b!"A\n", by decide, by decide, by decide⟩
      · exact ⟨b!"B\r\n", by decide, by decide, by decide⟩) (fun _ => none)
  obtain ⟨b, h1, h2⟩ := c82_trusts_partial (key := b!"B\n") rfl keyBuild_good hp (.inl twoLines_noBlank) hb he (by decide)
  obtain ⟨b', h3, h4⟩ := c82_trusts_partial (key := b!"C\n") rfl keyBuild_good hp (.inl twoLines_noBlank) hb he (by decide)
  refine ⟨d', e, hb, he, ?_, ?_⟩
  · rw [h1, h2.2 ⟨b!"b.pem", b!"B\r\n", (twoLines_listed _).2 (.inr rfl), by decide, by decide⟩]
  · rw [h3]
    cases b' with
    | false => rfl
    | true =>
      obtain ⟨f, c, hf, hc, hu⟩ := h4.1 rfl
      rcases (twoLines_listed f).1 hf with rfl | rfl
      · rw [show keyBuild.content (b!"k" ++ b!"/" ++ b!"a.pem") = some b!"A\n" by decide, Option.some.injEq] at hc
        subst hc; revert hu; decide
      · rw [show keyBuild.content (b!"k" ++ b!"/" ++ b!"b.pem") = some b!"B\r\n" by decide, Option.some.injEq] at hc
        subst hc; revert hu; decide

/-- A build directory in which the list `a.pem`, `b.pem` has been built before. -/
def earlier : BuildDir := fun f =>
  if f = b!"public_key_tool1.h" then some (headerText b!"PUBLIC_KEY_TOOL1" b!"B\r\n") else none

/-- **C82, negation.** A key is taken out of the list, its line left empty: the number of keys still counts the line,
and the header of the earlier build is still there.  The vendor executable goes on approving the key. -/
theorem c82_stale_not : ¬ c82_trusts_full := by
  intro h
  have hb : buildKeys keyBuild b!"o" b!"k" b!"a.pem\n\n" earlier = .ok (some ((earlier.put b!"public_key_tool0.h"
      (headerText b!"PUBLIC_KEY_TOOL0" b!"A\n")).put b!"public_key_tool.h" (keyTableText 2))) := by rfl
  obtain ⟨b, h1, h2⟩ := h keyBuild rfl keyBuild_good b!"o" b!"k" b!"a.pem\n\n" (by unfold PlainList FileChar; decide) _ _ hb
    ⟨2, [some [some 65, some 10, some 0], some [some 66, some 10, some 0, some 0], none]⟩ (by decide +kernel) b!"B\n"
    (by decide)
  have h3 : keyLoop (some b!"B\n") [some [some 65, some 10, some 0], some [some 66, some 10, some 0, some 0], none]
      0 2 = .ok true := by decide
  rw [h3, Res.ok.injEq] at h1
  obtain ⟨f, c, hf, hc, hu⟩ := h2.1 h1.symm
  have hf := (listed_iff _ _).2 hf
  rw [show (cmakeStrings [] b!"a.pem\n\n").filter (fun l => l ≠ []) = [b!"a.pem"] by decide, List.mem_singleton] at hf
  subst hf
  rw [show keyBuild.content (b!"k" ++ b!"/" ++ b!"a.pem") = some b!"A\n" by decide, Option.some.injEq] at hc
  subst hc
  revert hu
  decide

end Semla.Props

import Verif.Lemmas.Manifest

/-!
# Properties of the manifest: C42, C43, C44
-/

namespace Semla.Props

open Semla Spec

/-! ## C42: escaping

An XML reader gets back exactly the value given for an attribute or a text, and no value can introduce
markup.  The first part fails for white space: tabs and line ends in attributes are read as spaces, and
carriage returns as line feeds everywhere, since they are written as they are (a writer has to use
character references for them). -/

/-- Missing for the full claim: values with tabs, line feeds or carriage returns. -/
theorem c42_attr_partial (x : XmlOut) (k v : Bytes) (h : ∀ c ∈ v, c ≠ 9 ∧ c ≠ 10 ∧ c ≠ 13) :
    ∃ raw, (x.attr k v).out = x.out ++ (b!" " ++ k ++ b!"=\"" ++ raw ++ b!"\"") ∧
      readValue raw = some v := by
  refine ⟨escapeText v, by simp [XmlOut.attr, XmlOut.put], ?_⟩
  rw [readValue_escape, asValue_plain h]

/-- Missing for the full claim: values with carriage returns. -/
theorem c42_text_partial (x : XmlOut) (v : Bytes) (sep : Bool) (h : (13 : UInt8) ∉ v) :
    ∃ pre raw post, (x.text v sep).out = x.out ++ (pre ++ raw ++ post) ∧ readText raw = some v ∧
      (∀ c ∈ pre, c = 62 ∨ c = 10 ∨ c = 9) ∧ post = if sep then b!"\n" else [] := by
  obtain ⟨pre, hp, hc⟩ := text_out x v sep
  refine ⟨pre, escapeText v, _, hp, ?_, hc, rfl⟩
  rw [readText_escape, asText_plain h]

/-- No value introduces markup: what is written for it contains no `<`, `>` or `"`, and every `&`
belongs to a reference (reading does not fail). -/
theorem c42_markup (x : XmlOut) (k v : Bytes) (sep : Bool) :
    ∃ raw, (x.attr k v).out = x.out ++ (b!" " ++ k ++ b!"=\"" ++ raw ++ b!"\"") ∧
      (∃ pre post, (x.text v sep).out = x.out ++ (pre ++ raw ++ post)) ∧
      (∀ c ∈ raw, c ≠ 60 ∧ c ≠ 62 ∧ c ≠ 34) ∧ (readValue raw).isSome ∧ (readText raw).isSome := by
  obtain ⟨pre, hp, -⟩ := text_out x v sep
  refine ⟨escapeText v, by simp [XmlOut.attr, XmlOut.put], ⟨pre, _, hp⟩, escape_no_markup v, ?_, ?_⟩
  · rw [readValue_escape]
    rfl
  · rw [readText_escape]
    rfl

example : readValue (escapeText b!"a <b> & \"c\" 'd'") = some b!"a <b> & \"c\" 'd'" := by decide +kernel

/-- The full claim is false for attributes: a line feed is read as a space. -/
theorem c42_attr_not : ∃ x k v raw v', (XmlOut.attr x k v).out =
    x.out ++ (b!" " ++ k ++ b!"=\"" ++ raw ++ b!"\"") ∧ (34 : UInt8) ∉ raw ∧
    readValue raw = some v' ∧ v' ≠ v :=
  ⟨⟨[], 0, true, false⟩, b!"number", b!"1\n2", b!"1\n2", b!"1 2", by decide +kernel⟩

/-- It is false for texts: a carriage return is read as a line feed. -/
theorem c42_text_not : ∃ x v v', (XmlOut.text x v false).out = x.out ++ (b!">" ++ v) ∧
    readText v = some v' ∧ v' ≠ v :=
  ⟨⟨[], 0, true, false⟩, b!"a\rb", b!"a\nb", by decide +kernel⟩

/-! ## C43: the manifest is well formed

For every set of arguments without included files, the manifest is a well-formed document, with the
elements and values doc/SEMLA.md asks for and no others.  The values have to consist of the characters
XML allows, in UTF-8; the packaging tool does not check that. -/

/-- Missing for the full claim: values with other bytes.  (No argument is empty for an accepted command
line, see C38; `version` is mandatory; the icon is found if one is asked for, see C45.) -/
theorem c43_partial (d : ArgData)
    (hv : ∀ k ∈ manifestArgs, ∀ v, getValueOf d k = some v → v ≠ [] ∧ xmlChars v = true)
    (hver : (getValueOf d b!"version").isSome) (htools : getValueOf d b!"tools" = none)
    (hdeps : getValueOf d b!"dependencies" = none) (id : Bytes) (hid : xmlChars id = true)
    (lves : List (Bytes × Bytes)) (hl : ∀ l ∈ lves, l ∈ vendorExecutables)
    (icon : Option Bytes) (hi : ∀ p, icon = some p → xmlChars p = true)
    (hic : (getValueOf d b!"icon").isSome = icon.isSome) (read : Bytes → Option Bytes)
    (enc : Option (List (Bytes × Bytes)))
    (he : Encrypts (getValueOf d b!"encrypt") → enc = some lves)
    (hne : ¬ Encrypts (getValueOf d b!"encrypt") → enc = none) :
    ∃ doc es, createManifest d id (lves.map (·.1)) icon read = .ok doc ∧ readXml doc = some es ∧
      significant es = manifestParts (getValueOf d) id enc icon := by
  have henc : enc = if usingEncryption d then some lves else none := by
    by_cases hu : usingEncryption d = true
    · rw [if_pos hu, he ((usingEncryption_iff d).1 hu)]
    · rw [if_neg hu, hne (fun h => hu ((usingEncryption_iff d).2 h))]
  rw [henc]
  refine createManifest_reads d hv hver lves ?_ icon hi ?_ id hid read htools hdeps
  · intro l hm
    have := hl l hm
    simp only [vendorExecutables, List.mem_cons, List.not_mem_nil, or_false] at this
    rcases this with rfl | rfl | rfl | rfl | rfl <;> decide
  · rw [containsKey_eq, hic]

/-- What `manifestParts` asks for includes the mandatory fields: the version of the format, the
identifier of the library, and the given versions of the library and of the language. -/
theorem c43_fields (arg : Bytes → Option Bytes) (id : Bytes) (enc : Option (List (Bytes × Bytes)))
    (icon : Option Bytes) (ver lang : Bytes) (hv : arg b!"version" = some ver)
    (hl : arg b!"language" = some lang) :
    ∃ as bs, XmlEvent.start b!"library" ((b!"id", asValue id) :: as) ∈ manifestParts arg id enc icon ∧
      XmlEvent.start b!"version" ((b!"number", asValue ver) :: bs) ∈ manifestParts arg id enc icon ∧
      XmlEvent.start b!"language" [(b!"version", asValue lang)] ∈ manifestParts arg id enc icon ∧
      XmlEvent.start b!"manifest" [(b!"version", b!"1.0")] ∈ manifestParts arg id enc icon := by
  refine ⟨ifGiven (arg b!"enabled") (fun v => [(b!"enabled", asValue v)]),
    ifGiven (arg b!"build") (fun v => [(b!"build", asValue v)]) ++
    ifGiven (arg b!"date") (fun v => [(b!"date", asValue v)]), ?_, ?_, ?_, ?_⟩ <;>
    simp [manifestParts, libraryParts, leafElem, hv, hl, ifGiven]

/-- A command line with everything but included files. -/
def sampleArgs : ArgData :=
  match validateArguments [b!"-librarypath", b!"/l/Lib", b!"-version", b!"1.0", b!"-language",
    b!"3.2", b!"-encrypt", b!"true", b!"-title", b!"A & B", b!"-icon", b!"i.png", b!"-enabled",
    b!"true", b!"-date", b!"2020-01-01", b!"-copyright", b!"<c>"] with
  | .ok (some d) => d
  | _ => emptyArgs

example : ∃ doc, createManifest sampleArgs b!"Lib" [b!"lve_linux64"] (some b!"Lib/i.png") (fun _ => none) =
    .ok doc ∧ (readXml doc).map significant = some (manifestParts (getValueOf sampleArgs) b!"Lib"
      (some [(b!"lve_linux64", b!"linux64")]) (some b!"Lib/i.png")) ∧ 20 < (manifestParts
      (getValueOf sampleArgs) b!"Lib" (some [(b!"lve_linux64", b!"linux64")])
      (some b!"Lib/i.png")).length :=
  ⟨_, rfl, by decide +kernel⟩

example : manifestArgs.all (fun k => match getValueOf sampleArgs k with
      | some v => v ≠ [] ∧ xmlChars v
      | none => true) ∧ (getValueOf sampleArgs b!"version").isSome ∧
    getValueOf sampleArgs b!"tools" = none ∧ getValueOf sampleArgs b!"dependencies" = none := by
  decide +kernel

/-- The full claim is false: a control character in the title is written as it is, and then the manifest
is not XML. -/
theorem c43_not : ∃ d doc, getValueOf d b!"title" = some [1] ∧ (getValueOf d b!"version").isSome ∧
    createManifest d b!"Lib" [] none (fun _ => none) = .ok doc ∧ readXml doc = none := by
  refine ⟨match validateArguments [b!"-librarypath", b!"/l/Lib", b!"-version", b!"1.0",
    b!"-language", b!"3.2", b!"-encrypt", b!"false", b!"-title", [1]] with
    | .ok (some d) => d
    | _ => emptyArgs, _, ?_, ?_, rfl, ?_⟩ <;> decide +kernel

/-! ## C44: included files

All lines but the first one of a tools or dependencies file get into the manifest unchanged. -/

/-- Missing for the full claim: lines of 200 bytes and more (undefined behaviour), a last line without
line feed (lost), bytes 255 (end of copying) and 0 (rest of the line lost). -/
theorem c44_partial (x : XmlOut) (file : Bytes) (lines : List Bytes) (h : Includes file lines) :
    ∃ x', x.copyFileInformation (some file) = .ok x' ∧ ∃ space, (∀ c ∈ space, c = 9) ∧
      x'.out = x.out ++ (space ++ lines.flatMap (· ++ b!"\n")) := by
  obtain ⟨x', h, sp, h1, h2, -⟩ := copyFileInformation_ok x file lines h
  exact ⟨x', h, sp, h1, h2⟩

/-- The same for the whole manifest, with a tools file, a dependencies file, both or none: it is the manifest
for the same arguments without these two, with the lines inside the `library` element behind everything
else, first those of the tools file; only tabulators come in addition. -/
theorem c44_manifest_partial (d d' : ArgData) (id : Bytes) (lves : List Bytes) (icon : Option Bytes)
    (hver : (getValueOf d b!"version").isSome) (hic : (getValueOf d b!"icon").isSome = icon.isSome)
    (read : Bytes → Option Bytes) (lt ld : Option (List Bytes))
    (ht : Included (getValueOf d b!"tools") read lt)
    (hd : Included (getValueOf d b!"dependencies") read ld)
    (same : ∀ k, k ≠ b!"tools" → k ≠ b!"dependencies" → getValueOf d' k = getValueOf d k)
    (ht' : getValueOf d' b!"tools" = none) (hd' : getValueOf d' b!"dependencies" = none) :
    ∃ a b c, createManifest d' id lves icon read = .ok (a ++ b!"\t</library>\n</archive>\n") ∧
      createManifest d id lves icon read = .ok (a ++ b ++ includedText lt ++ c ++ includedText ld ++
        b!"\t</library>\n</archive>\n") ∧ ∀ x ∈ b ++ c, x = 9 :=
  createManifest_includes d d' id lves icon hver hic read lt ld ht hd same ht' hd'

/-- Arguments with a dependencies file and no tools file. -/
example : ∃ d d', (getValueOf d b!"version").isSome ∧ getValueOf d b!"icon" = none ∧
    Included (getValueOf d b!"tools") (fun _ => some b!"<?xml?>\n<a/>\n") none ∧
    Included (getValueOf d b!"dependencies") (fun _ => some b!"<?xml?>\n<a/>\n") (some [b!"<a/>"]) ∧
    (∀ k, k ≠ b!"tools" → k ≠ b!"dependencies" → getValueOf d' k = getValueOf d k) ∧
    getValueOf d' b!"tools" = none ∧ getValueOf d' b!"dependencies" = none := by
  refine ⟨[(b!"dependencies", b!"deps.xml"), (b!"version", b!"1.0")], [(b!"version", b!"1.0")],
    by decide +kernel, by decide +kernel, .absent (by decide +kernel),
    .file (path := b!"deps.xml") (by decide +kernel) rfl
      ⟨b!"<?xml?>", by decide +kernel, by decide +kernel⟩, ?_, by decide +kernel, by decide +kernel⟩
  intro k _ h
  have h' : b!"dependencies" ≠ k := fun e => h e.symm
  simp [getValueOf, h']

example : Includes b!"<?xml?>\n<tools>\n\t<tool id=\"A\"/>\n</tools>\n"
    [b!"<tools>", b!"\t<tool id=\"A\"/>", b!"</tools>"] :=
  ⟨b!"<?xml?>", by decide +kernel, by decide +kernel⟩

/-- A line of 200 bytes: undefined behaviour (the buffer has no room for the terminator). -/
theorem c44_long_not : ∃ x l, l.length = 200 ∧ XmlOut.copyFileInformation x
    (some (b!"first\n" ++ l ++ b!"\n")) = .ub .oobRead :=
  ⟨⟨[], 0, false, true⟩, List.replicate 200 97, by decide +kernel⟩

/-- Longer lines are written behind the buffer. -/
theorem c44_longer_not : ∃ x l, l.length = 201 ∧ XmlOut.copyFileInformation x
    (some (b!"first\n" ++ l ++ b!"\n")) = .ub .oobWrite :=
  ⟨⟨[], 0, false, true⟩, List.replicate 201 97, by decide +kernel⟩

/-- A last line without line feed is lost. -/
theorem c44_last_not : XmlOut.copyFileInformation ⟨[], 0, false, true⟩ (some b!"first\n<a>\n</a>") =
    .ok ⟨b!"<a>\n", 0, false, true⟩ := by decide +kernel

/-- Nothing behind a byte 255 is copied. -/
theorem c44_ff_not : XmlOut.copyFileInformation ⟨[], 0, false, true⟩
    (some (b!"first\n<a>\n" ++ [255] ++ b!"</a>\n")) = .ok ⟨b!"<a>\n", 0, false, true⟩ := by
  decide +kernel

end Semla.Props

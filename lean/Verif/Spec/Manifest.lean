import Verif.Spec.Xml

/-!
# What the manifest is to say

In terms of the parts an XML reader gets (`Spec/Xml.lean`), following the section on the manifest file
in doc/SEMLA.md.
-/

namespace Semla.Spec

open Semla

/-- The value a reader gets for an attribute, and the text for an element. -/
def asValue (v : Bytes) : Bytes := attrSpaces (lineEnds v)
def asText (v : Bytes) : Bytes := lineEnds v

/-- A value on a line of its own, indented. -/
def ownLine (v : Bytes) : Bytes := b!"\n\t\t\t" ++ v ++ b!"\n\t\t"

/-- An element with attributes only. -/
def leafElem (n : Bytes) (as : List (Bytes × Bytes)) : List XmlEvent := [.start n as, .stop n]

/-- An element with text only. -/
def textElem (n t : Bytes) : List XmlEvent := [.start n [], .text t, .stop n]

/-- Something for an argument if it is given. -/
def ifGiven {α : Type} (o : Option Bytes) (f : Bytes → List α) : List α :=
  match o with
  | some v => f v
  | none => []

/-- The arguments whose values appear in the manifest. -/
def manifestArgs : List Bytes :=
  [b!"enabled", b!"title", b!"description", b!"version", b!"build", b!"date", b!"language", b!"copyright",
    b!"license"]

/-- The value asks for encryption. -/
def Encrypts (o : Option Bytes) : Prop := ∃ v, o = some v ∧ eqNoCase v b!"true" = true

/-- The elements inside `library`: for arguments `arg`, the vendor executables with their platforms (if
the library is encrypted) and the icon path (if there is an icon). -/
def libraryParts (arg : Bytes → Option Bytes) (lves : Option (List (Bytes × Bytes)))
    (icon : Option Bytes) : List XmlEvent :=
  ifGiven (arg b!"title") (fun v => textElem b!"title" (asText v)) ++
  ifGiven (arg b!"description") (fun v => textElem b!"description" (asText (ownLine v))) ++
  ifGiven (arg b!"version") (fun v => leafElem b!"version" ([(b!"number", asValue v)] ++
    ifGiven (arg b!"build") (fun v => [(b!"build", asValue v)]) ++
    ifGiven (arg b!"date") (fun v => [(b!"date", asValue v)]))) ++
  ifGiven (arg b!"language") (fun v => leafElem b!"language" [(b!"version", asValue v)]) ++
  ifGiven (arg b!"copyright") (fun v => textElem b!"copyright" (asText (ownLine v))) ++
  ifGiven (arg b!"license") (fun v => textElem b!"license" (asText (ownLine v))) ++
  (match lves with
    | some ls => [.start b!"encryption" []] ++
      ls.flatMap (fun l => leafElem b!"executable" [(b!"path", b!".library/" ++ l.1), (b!"platform", l.2),
        (b!"licensing", b!"true")]) ++ [.stop b!"encryption"]
    | none => []) ++
  ifGiven icon (fun p => leafElem b!"icon" [(b!"file", asValue p)])

/-- The manifest of a library with identifier `id`. -/
def manifestParts (arg : Bytes → Option Bytes) (id : Bytes) (lves : Option (List (Bytes × Bytes)))
    (icon : Option Bytes) : List XmlEvent :=
  [.start b!"archive" []] ++ leafElem b!"manifest" [(b!"version", b!"1.0")] ++
  [.start b!"library" ([(b!"id", asValue id)] ++
    ifGiven (arg b!"enabled") (fun v => [(b!"enabled", asValue v)]))] ++
  libraryParts arg lves icon ++ [.stop b!"library", .stop b!"archive"]

/-- The vendor executables and the platforms they are for (doc/SEMLA.md, Encryption Section). -/
def vendorExecutables : List (Bytes × Bytes) :=
  [(b!"lve_win32.exe", b!"win32"), (b!"lve_win64.exe", b!"win64"), (b!"lve_linux32", b!"linux32"),
    (b!"lve_linux64", b!"linux64"), (b!"lve_darwin64", b!"darwin64")]

/-- A file of lines the packaging tool can handle: a first line, which is dropped, and further ones.  Each
is shorter than 200 bytes and ends with a line feed; there is no byte 0 or 255. -/
def Includes (file : Bytes) (lines : List Bytes) : Prop :=
  ∃ first, file = first ++ b!"\n" ++ lines.flatMap (· ++ b!"\n") ∧
    ∀ l ∈ first :: lines, l.length < 200 ∧ ∀ c ∈ l, c ≠ 0 ∧ c ≠ 10 ∧ c ≠ 255

/-- What an argument that names a file to include contributes: nothing if it is absent, else the lines of
the file. -/
inductive Included (arg : Option Bytes) (read : Bytes → Option Bytes) : Option (List Bytes) → Prop
  | absent (h : arg = none) : Included arg read none
  | file {path content : Bytes} {lines : List Bytes} (h : arg = some path) (hr : read path = some content)
      (hi : Includes content lines) : Included arg read (some lines)

/-- The lines as text. -/
def includedText : Option (List Bytes) → Bytes
  | none => []
  | some ls => ls.flatMap (· ++ b!"\n")

end Semla.Spec

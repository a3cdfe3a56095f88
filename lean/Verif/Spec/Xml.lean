import Verif.Basic

/-!
# A reader for a subset of XML 1.0

Independent of the manifest writer.  Everything it accepts is a well-formed XML 1.0 document encoded in
UTF-8; it understands elements, attributes in double quotes, character data and the predefined
entities, and no comments, CDATA sections, processing instructions or document types.  Names are ASCII.
The value of attributes and text is what the XML recommendation says a processor passes on: line ends
are normalised (section 2.11), white space in attributes becomes spaces (3.3.3) and references to
predefined entities are replaced (4.6).
-/

namespace Semla.Spec

open Semla

/-- A byte that continues a character in UTF-8. -/
def isCont (c : UInt8) : Bool := 128 ≤ c && c < 192

/-- `Char` of XML 1.0 in UTF-8: one byte. -/
def char1 (c : UInt8) : Bool := (32 ≤ c && c < 128) || c == 9 || c == 10 || c == 13

/-- Two bytes: U+0080 to U+07FF. -/
def char2 (c c1 : UInt8) : Bool := 194 ≤ c && c < 224 && isCont c1

/-- Three bytes: U+0800 to U+FFFD without the surrogates. -/
def char3 (c c1 c2 : UInt8) : Bool :=
  224 ≤ c && c < 240 && isCont c1 && isCont c2 && (c != 224 || 160 ≤ c1) && (c != 237 || c1 < 160) &&
    !(c == 239 && c1 == 191 && 190 ≤ c2)

/-- Four bytes: U+10000 to U+10FFFF. -/
def char4 (c c1 c2 c3 : UInt8) : Bool :=
  240 ≤ c && c < 245 && isCont c1 && isCont c2 && isCont c3 && (c != 240 || 144 ≤ c1) &&
    (c != 244 || c1 < 144)

/-- A sequence of characters of XML 1.0 in UTF-8. -/
def xmlChars : Bytes → Bool
  | [] => true
  | c :: cs => (char1 c && xmlChars cs) ||
    match cs with
    | [] => false
    | c1 :: cs => (char2 c c1 && xmlChars cs) ||
      match cs with
      | [] => false
      | c2 :: cs => (char3 c c1 c2 && xmlChars cs) ||
        match cs with
        | [] => false
        | c3 :: cs => char4 c c1 c2 c3 && xmlChars cs

/-- Line ends: CR LF and CR become LF. -/
def lineEnds : Bytes → Bytes
  | [] => []
  | 13 :: 10 :: cs => 10 :: lineEnds cs
  | 13 :: cs => 10 :: lineEnds cs
  | c :: cs => c :: lineEnds cs

/-- White space in attribute values becomes spaces. -/
def attrSpaces (s : Bytes) : Bytes := s.map fun c => if c = 9 ∨ c = 10 then 32 else c

/-- Replaces references to the predefined entities; nothing else may start with `&`, and `<` and `>` may
not occur (a bare `>` would be allowed). -/
def unescape : Bytes → Option Bytes
  | [] => some []
  | 38 :: 108 :: 116 :: 59 :: cs => (unescape cs).map (60 :: ·)
  | 38 :: 103 :: 116 :: 59 :: cs => (unescape cs).map (62 :: ·)
  | 38 :: 97 :: 109 :: 112 :: 59 :: cs => (unescape cs).map (38 :: ·)
  | 38 :: 113 :: 117 :: 111 :: 116 :: 59 :: cs => (unescape cs).map (34 :: ·)
  | 38 :: 97 :: 112 :: 111 :: 115 :: 59 :: cs => (unescape cs).map (39 :: ·)
  | c :: cs => if c = 38 ∨ c = 60 ∨ c = 62 then none else (unescape cs).map (c :: ·)

/-- The text an XML reader gets for the raw characters between two tags. -/
def readText (raw : Bytes) : Option Bytes := unescape (lineEnds raw)

/-- The value an XML reader gets for the raw characters of an attribute.  (White space is replaced before
references; the predefined entities are not white space.) -/
def readValue (raw : Bytes) : Option Bytes := unescape (attrSpaces (lineEnds raw))

/-- The parts of a document. -/
inductive XmlEvent where
  | start (name : Bytes) (attrs : List (Bytes × Bytes))
  | text (t : Bytes)
  | stop (name : Bytes)
  deriving DecidableEq, Repr

/-- ASCII name characters. -/
def isNameChar (c : UInt8) : Bool :=
  (97 ≤ c && c ≤ 122) || (65 ≤ c && c ≤ 90) || (48 ≤ c && c ≤ 57) || c == 95 || c == 45 || c == 46

/-- A name starts with a letter. -/
def isXmlName (n : Bytes) : Bool :=
  match n with
  | [] => false
  | c :: _ => ((97 ≤ c && c ≤ 122) || (65 ≤ c && c ≤ 90)) && n.all isNameChar

/-- Attributes, each with one space before it, and what follows them.  No name may occur twice. -/
def readAttrs : Nat → Bytes → Option (List (Bytes × Bytes) × Bytes)
  | 0, _ => none
  | fuel + 1, 32 :: s =>
    let name := s.takeWhile isNameChar
    match s.dropWhile isNameChar with
    | 61 :: 34 :: r =>
      let raw := r.takeWhile (· ≠ 34)
      match r.dropWhile (· ≠ 34) with
      | 34 :: r => do
        let v ← readValue raw
        let (as, rest) ← readAttrs fuel r
        if isXmlName name ∧ name ∉ as.map (·.1) then some ((name, v) :: as, rest) else none
      | _ => none
    | _ => none
  | _ + 1, s => some ([], s)

/-- Tags and character data. -/
def readEvents : Nat → Bytes → Option (List XmlEvent)
  | _, [] => some []
  | 0, _ => none
  | fuel + 1, 60 :: 47 :: s =>
    let name := s.takeWhile isNameChar
    match s.dropWhile isNameChar with
    | 62 :: r => if isXmlName name then (readEvents fuel r).map (.stop name :: ·) else none
    | _ => none
  | fuel + 1, 60 :: s =>
    let name := s.takeWhile isNameChar
    if isXmlName name then
      match readAttrs s.length (s.dropWhile isNameChar) with
      | some (as, 62 :: r) => (readEvents fuel r).map (.start name as :: ·)
      | some (as, 47 :: 62 :: r) => (readEvents fuel r).map fun es => .start name as :: .stop name :: es
      | _ => none
    else none
  | fuel + 1, s => do
    let t ← readText (s.takeWhile (· ≠ 60))
    let es ← readEvents fuel (s.dropWhile (· ≠ 60))
    some (.text t :: es)

/-- Only white space. -/
def isBlank (t : Bytes) : Bool := t.all fun c => c == 32 || c == 9 || c == 10 || c == 13

/-- One root element, every element closed in the right order, and nothing but white space outside. -/
def nested : List Bytes → Bool → List XmlEvent → Bool
  | stack, seen, [] => stack.isEmpty && seen
  | stack, seen, .start n _ :: es => !(stack.isEmpty && seen) && nested (n :: stack) true es
  | [], _, .stop _ :: _ => false
  | m :: stack, seen, .stop n :: es => m == n && nested stack seen es
  | stack, seen, .text t :: es => (!stack.isEmpty || isBlank t) && nested stack seen es

/-- The parts of a document, if it is well formed. -/
def readXml (doc : Bytes) : Option (List XmlEvent) :=
  let decl := b!"<?xml version=\"1.0\" encoding=\"utf-8\"?>"
  if decl <+: doc ∧ xmlChars doc then do
    let es ← readEvents doc.length (doc.drop decl.length)
    if nested [] false es then some es else none
  else none

/-- The parts without the white space between tags, except where it is all an element contains. -/
def significant : List XmlEvent → List XmlEvent
  | .start n as :: .text t :: .stop m :: es => .start n as :: .text t :: .stop m :: significant es
  | .text t :: es => if isBlank t then significant es else .text t :: significant es
  | e :: es => e :: significant es
  | [] => []

end Semla.Spec

import Verif.Model.Basic

/-!
# The input document (XMLDocument.hpp, pugixml)

The document is a tree of elements as the program sees it through `pugi::xml_node`.  Every element
of the schema has either text or child elements, never both, so the text is kept apart from the
children.
-/

namespace Minimc

/-- A `pugi::xml_node` of the document (XMLDocument.cpp:87-91): name, attributes, text, child
elements. -/
inductive Xml where
  | node (name : String) (attrs : List (String × String)) (text : String) (children : List Xml)

namespace Xml

/-- `xml_node::name()` (e.g. Driver.cpp:24). -/
def name : Xml → String
  | node n _ _ _ => n

/-- The attributes of an element (e.g. Cell.cpp:22). -/
def attrs : Xml → List (String × String)
  | node _ a _ _ => a

/-- `xml_node::child_value()` (e.g. Driver.cpp:40). -/
def text : Xml → String
  | node _ _ t _ => t

/-- The elements that a loop over a node visits (e.g. World.cpp:88). -/
def children : Xml → List Xml
  | node _ _ _ c => c

/-- The null node that pugixml returns when nothing is found (e.g. CSGSurface.cpp:20): its name is
empty, it has no attributes and no children.  Names of elements are not empty. -/
def null : Xml := node "" [] "" []

/-- `if (node)` (e.g. Interaction.cpp:28). -/
def isNull (n : Xml) : Bool := n.name == ""

/-- `xml_node::child(name)` (e.g. Driver.cpp:24): the first child of that name. -/
def child (n : Xml) (s : String) : Xml := (n.children.find? (fun c => c.name == s)).getD null

/-- `xml_node::first_child()` (e.g. Driver.cpp:24). -/
def firstChild (n : Xml) : Xml := n.children.head?.getD null

/-- `xml_node::attribute(name)` (e.g. Cell.cpp:92): absent or its value. -/
def attr (n : Xml) (s : String) : Option String :=
  (n.attrs.find? (fun a => a.1 == s)).map Prod.snd

/-- `attribute(name).as_string()` (e.g. Cell.cpp:22): empty when absent. -/
def attrString (n : Xml) (s : String) : String := (n.attr s).getD ""

end Xml

/-! ### Text -/

namespace Text

/-- White space (`std::isspace`, used by `operator>>` in Interaction.cpp:25 and by `std::stoi` in
Driver.cpp:40). -/
def isSpace (c : Char) : Bool :=
  c == ' ' || c == '\t' || c == '\n' || c == '\r' || c == '\x0b' || c == '\x0c'

/-- A decimal digit, as `std::stoi` (Driver.cpp:40) accepts them. -/
def isDigit (c : Char) : Bool := decide ('0' ≤ c ∧ c ≤ '9')

/-- The number written by the digits (`std::stoi`, Driver.cpp:40). -/
def digitsValue (cs : List Char) : ℕ := cs.foldl (fun a c => 10 * a + (c.toNat - '0'.toNat)) 0

/-- The words of `stream >> word` (Interaction.cpp:18-25); `acc` is the word being read, last
character first. -/
def wordsFrom : List Char → List Char → List String
  | acc, [] => if acc = [] then [] else [String.ofList acc.reverse]
  | acc, c :: cs =>
    if isSpace c then
      if acc = [] then wordsFrom [] cs else String.ofList acc.reverse :: wordsFrom [] cs
    else wordsFrom (c :: acc) cs

/-- The words read by a loop over `stream >> word` (Interaction.cpp:18-25, Multigroup.cpp:84-88). -/
def words (s : String) : List String := wordsFrom [] s.toList

/-- The optional sign at the start of a number (`std::stoi`, Driver.cpp:40): whether it is a minus
sign, and what follows. -/
def sign : List Char → Bool × List Char
  | '-' :: rest => (true, rest)
  | '+' :: rest => (false, rest)
  | rest => (false, rest)

/-- The sign and the digits at the start of a text, after white space (`std::stoi`, Driver.cpp:40;
`std::stoul`, Driver.cpp:49; `std::stoull`, Source.cpp:66): whether there is a minus sign, and the
value.  Text without digits raises `std::invalid_argument`. -/
def integer (s : String) : Res (Bool × ℕ) :=
  let r := sign (s.toList.dropWhile isSpace)
  let ds := r.2.takeWhile isDigit
  if ds = [] then .error .runtimeError else .ok (r.1, digitsValue ds)

/-- `std::stoi` (Driver.cpp:40-44) converted to an unsigned 64-bit number: `std::out_of_range`
unless the value fits into an `int`. -/
def stoi (s : String) : Res ℕ := do
  let (negative, v) ← integer s
  if negative then
    if v ≤ 2 ^ 31 then .ok ((2 ^ 64 - v) % 2 ^ 64) else .error .outOfRange
  else
    if v < 2 ^ 31 then .ok v else .error .outOfRange

/-- `std::stoul` (Driver.cpp:49) and `std::stoull` (Source.cpp:66). -/
def stoull (s : String) : Res ℕ := do
  let (negative, v) ← integer s
  if v < 2 ^ 64 then .ok (if negative then (2 ^ 64 - v) % 2 ^ 64 else v) else .error .outOfRange

/-- `as_ullong()` and `as_uint()` of an attribute that holds a positive integer (Bins.cpp:58, 97,
Multigroup.cpp:198, KEigenvalue.cpp:23, 28): values that do not fit become the largest one. -/
def asUnsigned (bits : ℕ) (s : String) : ℕ :=
  match integer s with
  | .ok (_, v) => min v (2 ^ bits - 1)
  | .error _ => 0

end Text
end Minimc

/-!
/repo/score/mw/com/impl/instance_specifier.cpp: validation of instance specifiers.
Strings are lists of bytes. std::isalpha and std::isalnum are modelled for the "C" locale, which is in effect unless the
process calls setlocale.
-/
namespace Verif.InstanceSpecifier

def slash : UInt8 := 47
def underscore : UInt8 := 95

/-- std::isalpha, std::isalnum in the "C" locale. -/
def isalpha (c : UInt8) : Bool := (65 ≤ c && c ≤ 90) || (97 ≤ c && c ≤ 122)
def isalnum (c : UInt8) : Bool := isalpha c || (48 ≤ c && c ≤ 57)

/-- The lambda validate_chars on a range (instance_specifier.cpp:45-60). -/
def validateChars (l : List UInt8) (firstChar : Bool) : Bool :=
  l.all fun c => (if firstChar then isalpha c else isalnum c) || c == underscore || c == slash

/-- shortname.find("//") != npos (instance_specifier.cpp:72-76). -/
def hasDoubleSlash : List UInt8 → Bool
  | [] => false
  | [_] => false
  | a :: b :: l => (a == slash && b == slash) || hasDoubleSlash (b :: l)

/-- IsShortNameValid (instance_specifier.cpp:38-78). -/
def isShortNameValid (s : List UInt8) : Bool :=
  if s.isEmpty || s.getLast? == some slash then false
  else if !validateChars (s.take 1) true then false
  else if !validateChars (s.drop 1) false then false
  else if hasDoubleSlash s then false
  else true

/-- InstanceSpecifier::Create (instance_specifier.cpp:82-99); `none` is kInvalidMetaModelShortname. -/
def create (s : List UInt8) : Option (List UInt8) := if isShortNameValid s then some s else none

end Verif.InstanceSpecifier

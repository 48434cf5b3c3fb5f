import Verif.Model.Rounding

/-
Parsed JSON documents as the simdjson DOM presents them, and the string functions used by
src/npeWorkloadIngest.cpp.  Parsing itself (text to document) is not modelled.
-/

namespace NPE

/-- A JSON value.  `int` is a number written without fraction or exponent; `double` is any other
number. -/
inductive Json where
  | null
  | bool (b : Bool)
  | int (n : Int)
  | double (x : ℚ)
  | str (s : String)
  | arr (l : List Json)
  | obj (l : List (String × Json))

namespace Json

/-- `element["key"]`: the first field of that name; an error for anything but an object. -/
def field (k : String) : Json → Option Json
  | .obj l => l.lookup k
  | _ => none

/-- `get_int64()`: an error unless the value is an integer of the signed 64-bit range. -/
def asInt : Json → Option Int
  | .int n => if -9223372036854775808 ≤ n ∧ n < 9223372036854775808 then some n else none
  | _ => none

/-- `get_uint64()`. -/
def asUint : Json → Option Nat
  | .int n => if 0 ≤ n ∧ n < 18446744073709551616 then some n.toNat else none
  | _ => none

/-- `get_double()`: integers are converted. -/
def asDouble (fp : FP) : Json → Option ℚ
  | .int n => some (fp.f64.fl n)
  | .double x => some (fp.f64.fl x)
  | _ => none

/-- `get_string()`. -/
def asStr : Json → Option String
  | .str s => some s
  | _ => none

/-- `get_array()`. -/
def asArr : Json → Option (List Json)
  | .arr l => some l
  | _ => none

/-- `get(simdjson::dom::object &)`. -/
def asObj : Json → Option Json
  | .obj l => some (.obj l)
  | _ => none

/-- `element["key"].get_int64()`. -/
def int? (j : Json) (k : String) : Option Int := (j.field k).bind asInt

/-- `get_with_default(element["key"].get_int64(), d)`, src/npeWorkloadIngest.cpp:22-29. -/
def intD (j : Json) (k : String) (d : Int) : Int := (j.int? k).getD d

/-- `get_with_default(element["key"].get_string(), std::string_view{})`,
src/npeWorkloadIngest.cpp:22-29. -/
def strD (j : Json) (k : String) : String := ((j.field k).bind asStr).getD ""

end Json

/-- `s.starts_with(p)`. -/
def startsWith (s p : String) : Bool := p.toList.isPrefixOf s.toList

/-- `s.ends_with(p)`. -/
def endsWith (s p : String) : Bool := p.toList.isSuffixOf s.toList

/-- Does `p` occur in the list? -/
def occursIn (p : List Char) : List Char → Bool
  | [] => p.isEmpty
  | c :: l => p.isPrefixOf (c :: l) || occursIn p l

/-- `s.find(p) != std::string::npos`. -/
def contains (s p : String) : Bool := occursIn p.toList s.toList

end NPE

import Verif.Model.Res

/-!
# Model of the classification of traits

`/repo/include/utils/StringUtils.h` and the first loop of `DBConnection::bsonify` (`/repo/src/utils/DBConnection.cpp:124-133`): whether the value of
a trait is stored as an integer, as a floating point number or as text. Strings are lists of ASCII characters. The regular expressions are
those of the code, matched by derivatives. `double` values are exact decimal numbers; the range of `double` is not modelled.
-/
namespace Verif
namespace Classify

abbrev Str := List Char

/-- Regular expressions. (include/utils/StringUtils.h:10, 16) -/
inductive Re where
  | none
  | eps
  | cls (p : Char → Bool)
  | seq (a b : Re)
  | alt (a b : Re)
  | star (a : Re)

/-- Accepts the empty text. (include/utils/StringUtils.h:10, 16) -/
def Re.nullable : Re → Bool
  | .none => false
  | .eps => true
  | .cls _ => false
  | .seq a b => a.nullable && b.nullable
  | .alt a b => a.nullable || b.nullable
  | .star _ => true

/-- Derivative. (include/utils/StringUtils.h:10, 16) -/
def Re.deriv (c : Char) : Re → Re
  | .none => .none
  | .eps => .none
  | .cls p => if p c then .eps else .none
  | .seq a b => if a.nullable then .alt (.seq (a.deriv c) b) (b.deriv c) else .seq (a.deriv c) b
  | .alt a b => .alt (a.deriv c) (b.deriv c)
  | .star a => .seq (a.deriv c) (.star a)

/-- `std::regex_match`: the whole text matches. (include/utils/StringUtils.h:10, 16) -/
def Re.run (r : Re) : Str → Bool
  | [] => r.nullable
  | c :: s => (r.deriv c).run s

/-- `x+` and `x?`. (include/utils/StringUtils.h:10, 16) -/
def Re.plus (a : Re) : Re := .seq a (.star a)
def Re.opt (a : Re) : Re := .alt a .eps

/-- `[0-9]`, `[1-9]`, `[Ee]`, `[+-]`, a single character. (include/utils/StringUtils.h:10, 16) -/
def digit (c : Char) : Bool := decide ('0'.toNat ≤ c.toNat ∧ c.toNat ≤ '9'.toNat)
def digit1 (c : Char) : Bool := decide ('1'.toNat ≤ c.toNat ∧ c.toNat ≤ '9'.toNat)
def Re.one (d : Char) : Re := .cls (fun c => c == d)

/-- `[(-|+)|]`: the range from `(` to `|`, and `+`, `)` and `|`. (StringUtils.h:10, 16) -/
def signClass (c : Char) : Bool := decide ('('.toNat ≤ c.toNat ∧ c.toNat ≤ '|'.toNat) || c == '+' || c == ')' || c == '|'

/-- `[(-|+)|][0-9]+`. (StringUtils.h:10) -/
def intRe : Re := .seq (.cls signClass) (.plus (.cls digit))

/-- `[(-|+)|](([1-9][0-9]*\.?[0-9]*)|(\.[0-9]+))([Ee][+-]?[0-9]+)?`. (StringUtils.h:16) -/
def floatRe : Re := .seq (.cls signClass) (.seq
  (.alt (.seq (.cls digit1) (.seq (.star (.cls digit)) (.seq (.opt (.one '.')) (.star (.cls digit)))))
    (.seq (.one '.') (.plus (.cls digit))))
  (.opt (.seq (.cls fun c => c == 'E' || c == 'e') (.seq (.opt (.cls fun c => c == '+' || c == '-')) (.plus (.cls digit))))))

/-- `s.size() == 1 && std::isdigit(s[0])`. (include/utils/StringUtils.h:9, 15) -/
def oneDigit : Str → Bool
  | [c] => digit c
  | _ => false

/-- `is_int`. (StringUtils.h:7-11) -/
def isInt (s : Str) : Bool := !s.isEmpty && (oneDigit s || intRe.run s)

/-- `is_float`. (StringUtils.h:13-17) -/
def isFloat (s : Str) : Bool := !s.isEmpty && (oneDigit s || floatRe.run s)

/-- Value of a text of digits. (src/utils/DBConnection.cpp:126, 129) -/
def natOf (s : Str) : Nat := s.foldl (fun a c => 10 * a + (c.toNat - '0'.toNat)) 0

/-- An optional sign at the beginning. (src/utils/DBConnection.cpp:126, 129) -/
def sign : Str → Int × Str
  | [] => (1, [])
  | c :: s => if c = '-' then (-1, s) else if c = '+' then (1, s) else (1, c :: s)

/-- `std::stol` without leading white space: sign, as many digits as possible; throws if there are none or the value is out of range.
(src/utils/DBConnection.cpp:126) -/
def stol (s : Str) : Res Int :=
  let ds := (sign s).2.takeWhile digit
  if ds = [] then .ub
  else
    let v := (sign s).1 * (natOf ds : Int)
    if -(2 ^ 63 : Int) ≤ v ∧ v < 2 ^ 63 then .done v else .ub

/-- An exponent at the beginning of a text; 0 if there is none. (src/utils/DBConnection.cpp:129) -/
def expOf : Str → Int
  | [] => 0
  | c :: s => if c = 'e' ∨ c = 'E' then (sign s).1 * (natOf ((sign s).2.takeWhile digit) : Int) else 0

/-- A point and digits at the beginning of a text: the digits and the remaining text. (src/utils/DBConnection.cpp:129) -/
def fraction : Str → Str × Str
  | [] => ([], [])
  | c :: u => if c = '.' then (u.takeWhile digit, u.dropWhile digit) else ([], c :: u)

/-- `std::stod` for decimal numbers: sign, digits with at most one point, exponent, as far as possible; throws if there is no digit. The
result `(m, e)` is the number `m * 10 ^ e`. -/
def stod (s : Str) : Res (Int × Int) :=
  let t := (sign s).2
  let a := t.takeWhile digit
  let t' := t.dropWhile digit
  let b := (fraction t').1
  let r := (fraction t').2
  if a ++ b = [] then .ub
  else .done ((sign s).1 * (natOf (a ++ b) : Int), expOf r - (b.length : Int))

/-- What is stored for a trait. (src/utils/DBConnection.cpp:125-134) -/
inductive Bson where
  | long (v : Int)
  | double (m e : Int)
  | text (s : Str)
  deriving DecidableEq

/-- Body of the first loop of `bsonify`. (DBConnection.cpp:125-132) -/
def bsonValue (s : Str) : Res Bson :=
  if isInt s then (stol s).bind fun v => .done (.long v)
  else if isFloat s then (stod s).bind fun v => .done (.double v.1 v.2)
  else .done (.text s)

end Classify
end Verif

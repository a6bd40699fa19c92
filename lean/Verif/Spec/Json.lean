import Mathlib.Algebra.Order.Ring.Rat
import Mathlib.Algebra.Field.Rat
import Mathlib.Algebra.GroupWithZero.Basic

/-!
# JSON

The grammar of RFC 8259, sections 2 to 7. Not modelled after a place in `/repo`; used in the specification of the reports.
-/
namespace Verif
namespace Json

/-- Values. -/
inductive J where
  | null
  | bool (b : Bool)
  | num (q : ℚ)
  | str (s : List Char)
  | arr (l : List J)
  | obj (l : List (List Char × J))

/-- White space. -/
def Ws (l : List Char) : Prop := ∀ c ∈ l, c = ' ' ∨ c = '\t' ∨ c = '\n' ∨ c = '\r'

/-- Decimal digits. -/
def IsDigit (c : Char) : Prop := 48 ≤ c.toNat ∧ c.toNat ≤ 57

/-- The number a string of digits denotes. -/
def value (l : List Char) : Nat := l.foldl (fun a c => 10 * a + (c.toNat - 48)) 0

/-- `int = zero / ( digit1-9 *DIGIT )` -/
def IsInt (l : List Char) : Prop := (∀ c ∈ l, IsDigit c) ∧ (l = ['0'] ∨ ∃ c t, l = c :: t ∧ c ≠ '0')

/-- `[ frac ]` with the digits after the point. -/
inductive Frac : List Char → List Char → Prop where
  | none : Frac [] []
  | some (ds : List Char) (hne : ds ≠ []) (hd : ∀ c ∈ ds, IsDigit c) : Frac ds ('.' :: ds)

/-- `[ exp ]` with the exponent. -/
inductive Exp : Int → List Char → Prop where
  | none : Exp 0 []
  | pos (c : Char) (sg ds : List Char) (hc : c = 'e' ∨ c = 'E') (hs : sg = [] ∨ sg = ['+']) (hne : ds ≠ [])
      (hd : ∀ c ∈ ds, IsDigit c) : Exp (value ds) (c :: (sg ++ ds))
  | neg (c : Char) (ds : List Char) (hc : c = 'e' ∨ c = 'E') (hne : ds ≠ []) (hd : ∀ c ∈ ds, IsDigit c) :
      Exp (-(value ds : Int)) (c :: '-' :: ds)

/-- `number = [ minus ] int [ frac ] [ exp ]` -/
inductive Num : ℚ → List Char → Prop where
  | mk (neg : Bool) (i fs f : List Char) (e : Int) (x : List Char) (hi : IsInt i) (hf : Frac fs f) (hx : Exp e x) :
      Num ((if neg then -1 else 1) * (value (i ++ fs) : ℚ) * (10 : ℚ) ^ (e - fs.length))
        ((if neg then ['-'] else []) ++ (i ++ (f ++ x)))

/-- The letters after a backslash and what they stand for. -/
def escapes : List (Char × Char) :=
  [('"', '"'), ('\\', '\\'), ('/', '/'), ('b', Char.ofNat 8), ('f', Char.ofNat 12), ('n', '\n'), ('r', '\r'), ('t', '\t')]

/-- Hexadecimal digits with their values. -/
def Hex (c : Char) (n : Nat) : Prop :=
  (IsDigit c ∧ n = c.toNat - 48) ∨ (65 ≤ c.toNat ∧ c.toNat ≤ 70 ∧ n = c.toNat - 55) ∨
    (97 ≤ c.toNat ∧ c.toNat ≤ 102 ∧ n = c.toNat - 87)

/-- `*char`: a string with its text between the quotation marks. Surrogate pairs are not combined. -/
inductive Body : List Char → List Char → Prop where
  | nil : Body [] []
  | plain (c : Char) (s t : List Char) (h32 : 32 ≤ c.toNat) (hq : c ≠ '"') (hb : c ≠ '\\') (h : Body s t) :
      Body (c :: s) (c :: t)
  | esc (c d : Char) (s t : List Char) (hm : (d, c) ∈ escapes) (h : Body s t) : Body (c :: s) ('\\' :: d :: t)
  | hex (c0 c1 c2 c3 : Char) (n0 n1 n2 n3 : Nat) (s t : List Char) (h0 : Hex c0 n0) (h1 : Hex c1 n1) (h2 : Hex c2 n2)
      (h3 : Hex c3 n3) (h : Body s t) :
      Body (Char.ofNat (((n0 * 16 + n1) * 16 + n2) * 16 + n3) :: s) ('\\' :: 'u' :: c0 :: c1 :: c2 :: c3 :: t)

/-- Nonterminals: a value, a value between white space, the elements of an array, one and all members of an object. -/
inductive Sym where
  | val (j : J)
  | elem (j : J)
  | elems (l : List J)
  | mem (k : List Char) (j : J)
  | mems (l : List (List Char × J))

/-- The text `s` is derived from a nonterminal. -/
inductive Der : Sym → List Char → Prop where
  | null : Der (.val .null) ['n', 'u', 'l', 'l']
  | tru : Der (.val (.bool true)) ['t', 'r', 'u', 'e']
  | fals : Der (.val (.bool false)) ['f', 'a', 'l', 's', 'e']
  | num (q : ℚ) (s : List Char) (h : Num q s) : Der (.val (.num q)) s
  | str (s t : List Char) (h : Body s t) : Der (.val (.str s)) ('"' :: (t ++ ['"']))
  | arr0 (w : List Char) (hw : Ws w) : Der (.val (.arr [])) ('[' :: (w ++ [']']))
  | arr (l : List J) (s : List Char) (h : Der (.elems l) s) : Der (.val (.arr l)) ('[' :: (s ++ [']']))
  | obj0 (w : List Char) (hw : Ws w) : Der (.val (.obj [])) ('{' :: (w ++ ['}']))
  | obj (l : List (List Char × J)) (s : List Char) (h : Der (.mems l) s) : Der (.val (.obj l)) ('{' :: (s ++ ['}']))
  | elem (j : J) (v s w : List Char) (hv : Ws v) (hw : Ws w) (h : Der (.val j) s) : Der (.elem j) (v ++ (s ++ w))
  | one (j : J) (s : List Char) (h : Der (.elem j) s) : Der (.elems [j]) s
  | more (j : J) (l : List J) (s t : List Char) (h : Der (.elem j) s) (hl : Der (.elems l) t) :
      Der (.elems (j :: l)) (s ++ ',' :: t)
  | mem (k : List Char) (j : J) (v t w s : List Char) (hv : Ws v) (hk : Body k t) (hw : Ws w) (h : Der (.elem j) s) :
      Der (.mem k j) (v ++ ('"' :: (t ++ ('"' :: (w ++ (':' :: s))))))
  | one' (k : List Char) (j : J) (s : List Char) (h : Der (.mem k j) s) : Der (.mems [(k, j)]) s
  | more' (k : List Char) (j : J) (l : List (List Char × J)) (s t : List Char) (h : Der (.mem k j) s)
      (hl : Der (.mems l) t) : Der (.mems ((k, j) :: l)) (s ++ ',' :: t)

/-- `JSON-text = ws value ws` -/
def Text (j : J) (s : List Char) : Prop := Der (.elem j) s

end Json
end Verif

import Verif.Model.Misc
import Verif.Model.Box

/-!
# Loading points from a file (include/Geometry.h:255-303)

A file is the list of its lines. `parse` is `std::stod`, `none` stands for its exception. `top` and `tiny` are
`std::numeric_limits<Precision>::max()` and `min()`, the latter is the smallest positive normalised number.
-/
namespace Verif
namespace Load
variable {D : Nat} {K : Type} [LinearOrder K]

/-- One round of the loop over the dimensions: `none` is an exception of `std::stod`, `fields[d]` behind the end is
undefined. (include/Geometry.h:284-291) -/
def dim (parse : List Char → Option K) (fields : List (List Char)) (d : Fin D) (s : Vec D K × Box D K) :
    Res (Option (Vec D K × Box D K)) :=
  match fields[d.val]? with
  | none => .ub
  | some f => match parse f with
    | none => .done none
    | some x => .done (some (Function.update s.1 d x,
        ⟨if x < s.2.low d then Function.update s.2.low d x else s.2.low,
         if s.2.high d < x then Function.update s.2.high d x else s.2.high⟩))

/-- The loop over the dimensions. (include/Geometry.h:284-291) -/
def dims (parse : List Char → Option K) (fields : List (List Char)) : List (Fin D) → Vec D K × Box D K → Res (Option (Vec D K × Box D K))
  | [], s => .done (some s)
  | d :: l, s => (dim parse fields d s).bind fun r => match r with
    | none => .done none
    | some s => dims parse fields l s

/-- The loop over the lines; `u` are the uninitialised coordinates of a new point. The assertion on the number of fields is
compiled out. (include/Geometry.h:274-295) -/
def lines (parse : List Char → Option K) (sep : Char) (u : Vec D K) :
    List (List Char) → List (Vec D K) × Box D K → Res (Option (List (Vec D K) × Box D K))
  | [], s => .done (some s)
  | l :: ls, s => (dims parse (Misc.splitLoop sep true l) (List.finRange D) (u, s.2)).bind fun r => match r with
    | none => .done none
    | some (p, b) => lines parse sep u ls (s.1 ++ [p], b)

/-- `loadFromFile` on the points `pts`. (include/Geometry.h:255-303) -/
def loadFromFile (parse : List Char → Option K) (top tiny : K) (sep : Char) (u : Vec D K) (pts : List (Vec D K))
    (file : List (List Char)) : Res (Option (List (Vec D K) × Box D K)) :=
  lines parse sep u file (pts, ⟨fun _ => top, fun _ => tiny⟩)

end Load
end Verif

import Verif.Model.Box
import Verif.Model.Simplex
import Verif.Model.Container

/-!
# Pictures of triangulations

`PainterImplementation<2>` of `/repo/src/lib/Painter_2.cxx`: where on the image points, lines, boxes and circles are drawn.
Simplifications: exact arithmetic instead of `float`; of the image only the geometry of the drawn lines is kept, not
the text, the colours and the pixels.
-/
namespace Verif
namespace Paint

variable {K : Type*} [Field K]

/-- The members `bounds`, `offset` and `img`. (include/Painter_impl.hxx:63-65) -/
structure Painter (K : Type*) where
  low : Vec 2 K
  high : Vec 2 K
  offset : Vec 2 K
  imgLow : Vec 2 K
  imgHigh : Vec 2 K

/-- `_init`. (src/lib/Painter_2.cxx:180-197) -/
def init (low high : Vec 2 K) (resolution : Nat) : Painter K where
  low := low
  high := high
  offset d := high d - low d
  imgLow _ := 0
  imgHigh d := 0 + 3 * (high d - low d) * resolution

/-- `imgDim`. (src/lib/Painter_2.cxx:12-15) -/
def imgDim (p : Painter K) (d : Fin 2) : K := p.imgHigh d - p.imgLow d

/-- `translatePoint`. (src/lib/Painter_2.cxx:17-22) -/
def translatePoint (p : Painter K) (x : K) (d : Fin 2) : K :=
  (p.offset d + x - p.low d) / (3 * (p.high d - p.low d)) * imgDim p d

/-- `translateLength`. (src/lib/Painter_2.cxx:24-27) -/
def translateLength (p : Painter K) (x : K) (d : Fin 2) : K :=
  x / (3 * (p.high d - p.low d)) * imgDim p d

/-- The position of a point on the image. (src/lib/Painter_2.cxx:56-59, 88-89) -/
def place (p : Painter K) (a : Vec 2 K) : Vec 2 K := fun d => translatePoint p (a d) d

/-- `drawBox`: the rectangle as corner, width and height. (src/lib/Painter_2.cxx:64-71) -/
def drawBox (p : Painter K) (low high : Vec 2 K) : Vec 2 K × Vec 2 K :=
  (fun d => translatePoint p (low d) d, fun d => translateLength p (high d - low d) d)

/-- The circle of `drawCircumSphere` as centre and radius. (src/lib/Painter_2.cxx:151-153) -/
def drawCircle (p : Painter K) (center : Vec 2 K) (radius : K) : Vec 2 K × K :=
  (place p center, translateLength p radius 0)

/-- `draw` for a simplex: the lines from the position of one vertex to that of the next one.
(src/lib/Painter_2.cxx:100-126) -/
def drawSimplex (p : Painter K) (pts : BitVec 64 → Vec 2 K) (v : Fin 3 → BitVec 64) (drawInfinite : Bool) :
    List (Vec 2 K × Vec 2 K) :=
  let finite := PointId.isFinite 2 (v 0) && PointId.isFinite 2 (v 1) && PointId.isFinite 2 (v 2)
  if drawInfinite || finite then
    [0, 1, 2].map fun d => (place p (pts (v d)), place p (pts (v (d + 1))))
  else []

/-- The loop over all points: `begin()` and `end()` are those of the vector. (src/exe/LB_Painting.cpp:153-155;
include/Painter.h:86-90; include/datastructures/VectorAdapter2.hxx:93-111) -/
def drawPoints {K : Type} [Field K] (p : Painter K) (c : PointId.Cont (Vec 2 K)) : List (Vec 2 K) :=
  c.vec.map (place p)

end Paint
end Verif

import Verif.Model.Orient3

/-!
# Adaptive insphere test in space

`/repo/src/utils/Predicates.cpp` lines 3131-3381 and 3711-4040. The code repeats the same statements for the points; here they are functions of
the numbers and arrays that differ.
-/
namespace Verif
namespace FP

/-- `temp24`, and `abc`, ..., `eac` of the exact stage: the sum of three expansions times numbers.
(src/utils/Predicates.cpp:3215-3221, 3793-3799) -/
def sum24 (p : Nat) (splitter : ℚ) (e : List ℚ) (x : ℚ) (f : List ℚ) (y : ℚ) (g : List ℚ) (z : ℚ) : List ℚ :=
  fes p (scale p splitter g z) (fes p (scale p splitter e x) (scale p splitter f y))

/-- `adet`, `ddet`, ..: an expansion times the squared length of a vector. (src/utils/Predicates.cpp:3302-3309, 3816-3823) -/
def liftPos (p : Nat) (splitter : ℚ) (t : List ℚ) (x y z : ℚ) : List ℚ :=
  fes p (fes p (scale p splitter (scale p splitter t x) x) (scale p splitter (scale p splitter t y) y))
    (scale p splitter (scale p splitter t z) z)

/-- `adet`, `cdet` of `insphere_adapt`: the same with opposite sign. (src/utils/Predicates.cpp:3800-3807, 3832-3839) -/
def liftNeg (p : Nat) (splitter : ℚ) (t : List ℚ) (x y z : ℚ) : List ℚ :=
  fes p (fes p (scale p splitter (scale p splitter t x) (-x)) (scale p splitter (scale p splitter t y) (-y)))
    (scale p splitter (scale p splitter t z) (-z))

/-- `abcd`, `bcde`, `cdea`, `deab`, `eabc`: `e + f - (g + h)`. (src/utils/Predicates.cpp:3295-3301) -/
def comb96 (p : Nat) (e f g h : List ℚ) : List ℚ := fes p (fes p e f) ((fes p g h).map (fun x => -x))

/-- `ab`, `bc`, ... of the exact stage. (src/utils/Predicates.cpp:3175-3213) -/
def raw4 (p : Nat) (splitter : ℚ) (a b : ℚ × ℚ × ℚ) : List ℚ := diff4 p splitter a.1 b.2.1 b.1 a.2.1

/-- `insphere_exact` of the space, all components. (src/utils/Predicates.cpp:3131-3381) -/
def exact3 (p : Nat) (splitter : ℚ) (pa pb pc pd pe : ℚ × ℚ × ℚ) : List ℚ :=
  let ab := raw4 p splitter pa pb
  let bc := raw4 p splitter pb pc
  let cd := raw4 p splitter pc pd
  let de := raw4 p splitter pd pe
  let ea := raw4 p splitter pe pa
  let ac := raw4 p splitter pa pc
  let bd := raw4 p splitter pb pd
  let ce := raw4 p splitter pc pe
  let da := raw4 p splitter pd pa
  let eb := raw4 p splitter pe pb
  let abc := sum24 p splitter bc pa.2.2 ac (-pb.2.2) ab pc.2.2
  let bcd := sum24 p splitter cd pb.2.2 bd (-pc.2.2) bc pd.2.2
  let cde := sum24 p splitter de pc.2.2 ce (-pd.2.2) cd pe.2.2
  let dea := sum24 p splitter ea pd.2.2 da (-pe.2.2) de pa.2.2
  let eab := sum24 p splitter ab pe.2.2 eb (-pa.2.2) ea pb.2.2
  let abd := sum24 p splitter bd pa.2.2 da pb.2.2 ab pd.2.2
  let bce := sum24 p splitter ce pb.2.2 eb pc.2.2 bc pe.2.2
  let cda := sum24 p splitter da pc.2.2 ac pd.2.2 cd pa.2.2
  let deb := sum24 p splitter eb pd.2.2 bd pe.2.2 de pb.2.2
  let eac := sum24 p splitter ac pe.2.2 ce pa.2.2 ea pc.2.2
  let bcde := comb96 p cde bce deb bcd
  let adet := liftPos p splitter bcde pa.1 pa.2.1 pa.2.2
  let cdea := comb96 p dea cda eac cde
  let bdet := liftPos p splitter cdea pb.1 pb.2.1 pb.2.2
  let deab := comb96 p eab deb abd dea
  let cdet := liftPos p splitter deab pc.1 pc.2.1 pc.2.2
  let eabc := comb96 p abc eac bce eab
  let ddet := liftPos p splitter eabc pd.1 pd.2.1 pd.2.2
  let abcd := comb96 p bcd abd cda abc
  let edet := liftPos p splitter abcd pe.1 pe.2.1 pe.2.2
  fes p (fes p adet bdet) (fes p (fes p cdet ddet) edet)

/-- `alift`, ...: the squared length. (src/utils/Predicates.cpp:3995-3998, 3899) -/
def liftFl (p : Nat) (x y z : ℚ) : ℚ := rnd p (rnd p (rnd p (x * x) + rnd p (y * y)) + rnd p (z * z))

/-- The product of a vector and its tail. (src/utils/Predicates.cpp:3911, 3913, 3915, 3917) -/
def liftTail (p : Nat) (a : Side3) : ℚ := rnd p (rnd p (rnd p (a.x * a.xt) + rnd p (a.y * a.yt)) + rnd p (a.z * a.zt))

/-- `cda`, `dab`: the sum of three products. (src/utils/Predicates.cpp:3992-3993, 3900-3901) -/
def volP (p : Nat) (z1 c1 z2 c2 z3 c3 : ℚ) : ℚ := rnd p (rnd p (rnd p (z1 * c1) + rnd p (z2 * c2)) + rnd p (z3 * c3))

/-- `abc`, `bcd`: the sum of three products, the second one negative. (src/utils/Predicates.cpp:3990-3991, 3903-3904) -/
def volM (p : Nat) (z1 c1 z2 c2 z3 c3 : ℚ) : ℚ := rnd p (rnd p (rnd p (z1 * c1) - rnd p (z2 * c2)) + rnd p (z3 * c3))

/-- `abeps`, ...: the terms of first order of `ab`, .... (src/utils/Predicates.cpp:3887-3898) -/
def epsFl (p : Nat) (a b : Side3) : ℚ :=
  rnd p (rnd p (rnd p (a.x * b.yt) + rnd p (b.y * a.xt)) - rnd p (rnd p (a.y * b.xt) + rnd p (b.x * a.yt)))

/-- The number that the third stage adds to the estimate. (src/utils/Predicates.cpp:3887-3918) -/
def corrSphere (p : Nat) (a b c d : Side3) (ab3 bc3 cd3 da3 ac3 bd3 : ℚ) : ℚ :=
  let abeps := epsFl p a b
  let bceps := epsFl p b c
  let cdeps := epsFl p c d
  let daeps := epsFl p d a
  let aceps := epsFl p a c
  let bdeps := epsFl p b d
  let tb := rnd p (liftFl p b.x b.y b.z *
    rnd p (volP p c.z daeps d.z aceps a.z cdeps + volP p c.zt da3 d.zt ac3 a.zt cd3))
  let td := rnd p (liftFl p d.x d.y d.z *
    rnd p (volM p a.z bceps b.z aceps c.z abeps + volM p a.zt bc3 b.zt ac3 c.zt ab3))
  let ta := rnd p (liftFl p a.x a.y a.z *
    rnd p (volM p b.z cdeps c.z bdeps d.z bceps + volM p b.zt cd3 c.zt bd3 d.zt bc3))
  let tc := rnd p (liftFl p c.x c.y c.z *
    rnd p (volP p d.z abeps a.z bdeps b.z daeps + volP p d.zt ab3 a.zt bd3 b.zt da3))
  let ub := rnd p (liftTail p b * volP p c.z da3 d.z ac3 a.z cd3)
  let ud := rnd p (liftTail p d * volM p a.z bc3 b.z ac3 c.z ab3)
  let ua := rnd p (liftTail p a * volM p b.z cd3 c.z bd3 d.z bc3)
  let uc := rnd p (liftTail p c * volP p d.z ab3 a.z bd3 b.z da3)
  rnd p (rnd p (rnd p (tb + td) - rnd p (ta + tc)) + rnd p (2 * rnd p (rnd p (ub + ud) - rnd p (ua + uc))))

/-- All tails are zero. (src/utils/Predicates.cpp:3879-3882) -/
def Side3.exact (a : Side3) : Prop := a.xt = 0 ∧ a.yt = 0 ∧ a.zt = 0

instance (a : Side3) : Decidable a.exact := inferInstanceAs (Decidable (_ ∧ _ ∧ _))

/-- `fin1`. (src/utils/Predicates.cpp:3763-3859) -/
def fin3 (p : Nat) (splitter : ℚ) (a b c d : Side3) : List ℚ :=
  let ab := cross4 p splitter a.toSide b.toSide
  let bc := cross4 p splitter b.toSide c.toSide
  let cd := cross4 p splitter c.toSide d.toSide
  let da := cross4 p splitter d.toSide a.toSide
  let ac := cross4 p splitter a.toSide c.toSide
  let bd := cross4 p splitter b.toSide d.toSide
  let adet := liftNeg p splitter (sum24 p splitter cd b.z bd (-c.z) bc d.z) a.x a.y a.z
  let bdet := liftPos p splitter (sum24 p splitter da c.z ac d.z cd a.z) b.x b.y b.z
  let cdet := liftNeg p splitter (sum24 p splitter ab d.z bd a.z da b.z) c.x c.y c.z
  let ddet := liftPos p splitter (sum24 p splitter bc a.z ac (-b.z) ab c.z) d.x d.y d.z
  fes p (fes p adet bdet) (fes p cdet ddet)

/-- `insphere_adapt` of the space. (src/utils/Predicates.cpp:3711-3924) -/
def insphereAdapt3 (p : Nat) (k : Consts) (pa pb pc pd pe : ℚ × ℚ × ℚ) (permanent : ℚ) : ℚ :=
  let a := side3 p pa pe
  let b := side3 p pb pe
  let c := side3 p pc pe
  let d := side3 p pd pe
  let det := estimate p (fin3 p k.splitter a b c d)
  let errbound := rnd p (k.isperrboundB * permanent)
  if errbound ≤ det ∨ errbound ≤ -det then det
  else if a.exact ∧ b.exact ∧ c.exact ∧ d.exact then det
  else
    let errbound := rnd p (rnd p (k.isperrboundC * permanent) + rnd p (k.resulterrbound * |det|))
    let det := rnd p (det + corrSphere p a b c d
      (top (cross4 p k.splitter a.toSide b.toSide)) (top (cross4 p k.splitter b.toSide c.toSide)) (top (cross4 p k.splitter c.toSide d.toSide))
      (top (cross4 p k.splitter d.toSide a.toSide)) (top (cross4 p k.splitter a.toSide c.toSide)) (top (cross4 p k.splitter b.toSide d.toSide)))
    if errbound ≤ det ∨ errbound ≤ -det then det
    else top (exact3 p k.splitter pa pb pc pd pe)

/-- One summand of `permanent`. (src/utils/Predicates.cpp:4018-4021) -/
def permTerm (p : Nat) (u1 v1 z1 u2 v2 z2 u3 v3 z3 l : ℚ) : ℚ :=
  rnd p (rnd p (rnd p (rnd p (rnd p (|u1| + |v1|) * |z1|) + rnd p (rnd p (|u2| + |v2|) * |z2|)) + rnd p (rnd p (|u3| + |v3|) * |z3|)) * l)

/-- `insphere` of the space. (src/utils/Predicates.cpp:3941-4040) -/
def insphere3 (p : Nat) (k : Consts) (pa pb pc pd pe : ℚ × ℚ × ℚ) : ℚ :=
  let aex := rnd p (pa.1 - pe.1)
  let bex := rnd p (pb.1 - pe.1)
  let cex := rnd p (pc.1 - pe.1)
  let dex := rnd p (pd.1 - pe.1)
  let aey := rnd p (pa.2.1 - pe.2.1)
  let bey := rnd p (pb.2.1 - pe.2.1)
  let cey := rnd p (pc.2.1 - pe.2.1)
  let dey := rnd p (pd.2.1 - pe.2.1)
  let aez := rnd p (pa.2.2 - pe.2.2)
  let bez := rnd p (pb.2.2 - pe.2.2)
  let cez := rnd p (pc.2.2 - pe.2.2)
  let dez := rnd p (pd.2.2 - pe.2.2)
  let aexbey := rnd p (aex * bey)
  let bexaey := rnd p (bex * aey)
  let ab := rnd p (aexbey - bexaey)
  let bexcey := rnd p (bex * cey)
  let cexbey := rnd p (cex * bey)
  let bc := rnd p (bexcey - cexbey)
  let cexdey := rnd p (cex * dey)
  let dexcey := rnd p (dex * cey)
  let cd := rnd p (cexdey - dexcey)
  let dexaey := rnd p (dex * aey)
  let aexdey := rnd p (aex * dey)
  let da := rnd p (dexaey - aexdey)
  let aexcey := rnd p (aex * cey)
  let cexaey := rnd p (cex * aey)
  let ac := rnd p (aexcey - cexaey)
  let bexdey := rnd p (bex * dey)
  let dexbey := rnd p (dex * bey)
  let bd := rnd p (bexdey - dexbey)
  let abc := volM p aez bc bez ac cez ab
  let bcd := volM p bez cd cez bd dez bc
  let cda := volP p cez da dez ac aez cd
  let dab := volP p dez ab aez bd bez da
  let alift := liftFl p aex aey aez
  let blift := liftFl p bex bey bez
  let clift := liftFl p cex cey cez
  let dlift := liftFl p dex dey dez
  let det := rnd p (rnd p (rnd p (dlift * abc) - rnd p (clift * dab)) + rnd p (rnd p (blift * cda) - rnd p (alift * bcd)))
  let permanent := rnd p (rnd p (rnd p (
      permTerm p cexdey dexcey bez dexbey bexdey cez bexcey cexbey dez alift +
      permTerm p dexaey aexdey cez aexcey cexaey dez cexdey dexcey aez blift) +
      permTerm p aexbey bexaey dez bexdey dexbey aez dexaey aexdey bez clift) +
      permTerm p bexcey cexbey aez cexaey aexcey bez aexbey bexaey cez dlift)
  let errbound := rnd p (k.isperrboundA * permanent)
  if errbound < det ∨ errbound < -det then det else insphereAdapt3 p k pa pb pc pd pe permanent

/-- `GeometryCore<3>::inSphere` with the adaptive tests. (src/lib/Geometry.cpp:351-410) -/
def inSphereFl3 (p : Nat) (k : Consts) (q s0 s1 s2 s3 : ℚ × ℚ × ℚ) : Bool :=
  decide (rnd p (orient3 p k s0 s1 s2 s3 * insphere3 p k s0 s1 s2 s3 q) ≥ 0)

end FP
end Verif

import Mathlib.Data.Rat.Defs

/-!
# Command line of the load balancing experiments

`/repo/src/exe/LB_Experiments.cpp`, `/repo/include/load_balancing/CommandLineInterface.h` and the constructor of `Experiment`
in `/repo/include/load_balancing/Experiment.h`.

The parser of boost is not modelled, the model starts with the options that were given. Reading points from a file is in
`Verif.Model.Load`. The generators and partitioners are named here, their behaviour is in `Gen`, `PTree` and `Sample`.
-/
namespace Verif
namespace Cli

/-- `po::variables_map`: the options that were given. (include/load_balancing/CommandLineInterface.h:211-232,
src/exe/LB_Experiments.cpp:62-67) -/
structure Options where
  dim : Option Nat := none
  n : Option Nat := none
  points : Option String := none
  partitioner : Option String := none
  distribution : Option String := none
  sampleSize : Option Nat := none
  sampling : Option String := none
  edgeWeights : Option String := none
  imbalance : Option ℚ := none
  numBubbles : Option Nat := none
  bubbleRadius : Option ℚ := none
  cellWidth : Option ℚ := none
  bounds : Option String := none
  kaffpaMode : Option String := none
  splitDimension : Option Nat := none
  flatten : Bool := false
  help : Bool := false

/-- How a run of the program ends before or with the start of the experiment. (src/exe/LB_Experiments.cpp:55-118) -/
inductive Out (α : Type) where
  /-- The experiment is started. -/
  | ok (a : α)
  /-- The program prints a message and ends. -/
  | message
  /-- An exception, also that of `as` for an option that was not given. -/
  | throws
  /-- Undefined behaviour. -/
  | ub
  deriving DecidableEq, Repr

/-- Sequencing. (src/exe/LB_Experiments.cpp:15-53) -/
def Out.bind {α β : Type} (a : Out α) (f : α → Out β) : Out β :=
  match a with
  | .ok a => f a
  | .message => .message
  | .throws => .throws
  | .ub => .ub

/-- `vm[name].as<T>()`. (include/load_balancing/CommandLineInterface.h:43) -/
def Out.ofOption {α : Type} : Option α → Out α
  | some a => .ok a
  | none => .throws

/-- The point generators. (include/load_balancing/CommandLineInterface.h:42-68) -/
inductive Generator where
  | ellipsoid | skewLine | normal | uniform | bubble
  | unboundBubble (num : Nat) (radius : ℚ)
  | patchBubble (num : Nat)
  | maliciousBubble (num : Nat)
  deriving DecidableEq, Repr

/-- `createGenerator`; `none` is the null pointer. (include/load_balancing/CommandLineInterface.h:41-68) -/
def createGenerator (D : Nat) (o : Options) : Out (Option Generator) :=
  (Out.ofOption o.distribution).bind fun d => .ok <|
    if "ellipsoid" = d then some .ellipsoid
    else if "skew-line" = d then some .skewLine
    else if "normal" = d then some .normal
    else if "uniform" = d then some .uniform
    else if "bubble" = d then some .bubble
    else if "unbound-bubble" = d then some (.unboundBubble (o.numBubbles.getD (4 ^ D)) (o.bubbleRadius.getD 10))
    else if "patch-bubble" = d then some (.patchBubble (o.numBubbles.getD (4 ^ D)))
    else if "malicious-bubble" = d then some (.maliciousBubble (o.numBubbles.getD (4 ^ D)))
    else none

/-- The partition makers. (include/load_balancing/CommandLineInterface.h:70-86) -/
inductive Maker where
  | grid (width : ℚ)
  | accurateGrid (width : ℚ)
  | boxes
  deriving DecidableEq, Repr

/-- `createIntersectionPartitionMakerFunction`. (include/load_balancing/CommandLineInterface.h:69-86) -/
def createMaker (o : Options) : Out Maker :=
  match o.bounds with
  | none => (Out.ofOption o.cellWidth).bind fun w => .ok (.grid w)
  | some b =>
    if b = "grid" then (Out.ofOption o.cellWidth).bind fun w => .ok (.grid w)
    else if b = "accurate-grid" then (Out.ofOption o.cellWidth).bind fun w => .ok (.accurateGrid w)
    else if b = "box" ∨ b = "boxes" then .ok .boxes
    else .throws

/-- The sample size functions. (include/load_balancing/CommandLineInterface.h:93-110) -/
inductive Size where
  | sqrt | log | const (c : Nat)
  deriving DecidableEq, Repr

/-- The choice of the sample size. (include/load_balancing/CommandLineInterface.h:93-110) -/
def createSize (o : Options) : Out Size :=
  match o.sampleSize, o.sampling with
  | none, none => .ok .sqrt
  | none, some s => if "sqrt" = s then .ok .sqrt else if "log" = s then .ok .log else .throws
  | some c, none => .ok (.const c)
  | some _, some _ => .throws

/-- Modes of KaHIP. (include/load_balancing/CommandLineInterface.h:115-127) -/
inductive Mode where
  | fast | eco | strong | par
  deriving DecidableEq, Repr

/-- The choice of the mode; an unknown name is reported but not rejected.
(include/load_balancing/CommandLineInterface.h:115-127) -/
def mode (o : Options) : Mode :=
  match o.kaffpaMode with
  | none => .fast
  | some s => if "ECO" = s then .eco else if "STRONG" = s then .strong else if "PAR" = s then .par else .fast

/-- The weight functions of the edges; `empty` is a `std::function` without a target.
(include/load_balancing/CommandLineInterface.h:112-113, 129-140) -/
inductive Weight where
  | uniform | squaredInverted | inverted | linear | log | empty
  deriving DecidableEq, Repr

/-- The choice of the weight function. (include/load_balancing/CommandLineInterface.h:112-113, 129-140) -/
def weight (o : Options) : Weight :=
  match o.edgeWeights with
  | none => .uniform
  | some s =>
    if "uniform" = s then .uniform
    else if "squared-inverted" = s then .squaredInverted
    else if "inverted" = s then .inverted
    else if "linear" = s then .linear
    else if "log" = s then .log
    else .empty

/-- The partitioners. (include/load_balancing/CommandLineInterface.h:154-200) -/
inductive Partitioner where
  | besp | centerDistance (m : Maker) | boundsDistance (m : Maker) | nearest (m : Maker) | nearestBi (m : Maker)
  | hyperplane | kway | dWay | cycle | extend | oneDim (d : Nat)
  | flat (p : Partitioner)
  deriving DecidableEq, Repr

/-- The part of `createPartitioner` that depends on the name: the pointer to the old partitioner is null for an unknown
name and is dereferenced. (include/load_balancing/CommandLineInterface.h:154-200) -/
def createNamed (o : Options) (name : String) : Out Partitioner :=
  if "binary-besp" = name then .ok .besp
  else if "center-distance-pasp" = name then (createMaker o).bind fun m => .ok (.centerDistance m)
  else if "bounds-distance-pasp" = name then (createMaker o).bind fun m => .ok (.boundsDistance m)
  else if "nearest-sample-pasp" = name then (createMaker o).bind fun m => .ok (.nearest m)
  else if "nearest-sample-pasb" = name then (createMaker o).bind fun m => .ok (.nearestBi m)
  else if "hyperplane-sample-pasb" = name then .ok .hyperplane
  else if "kway-cycle" = name then .ok .kway
  else if "dWay" = name then .ok .dWay
  else if "cycle" = name then .ok .cycle
  else if "extend" = name then .ok .extend
  else if "one-dim" = name then (Out.ofOption o.splitDimension).bind fun d => .ok (.oneDim d)
  else .ub

/-- What `createPartitioner` has put together. (include/load_balancing/CommandLineInterface.h:87-208) -/
structure Setup where
  partitioner : Partitioner
  size : Size
  mode : Mode
  weight : Weight
  imbalance : ℚ
  deriving DecidableEq

/-- `createPartitioner`. (include/load_balancing/CommandLineInterface.h:87-208) -/
def createPartitioner (o : Options) : Out Setup :=
  (Out.ofOption o.partitioner).bind fun name =>
  (createSize o).bind fun f =>
  (createNamed o name).bind fun p =>
    .ok ⟨if o.flatten then .flat p else p, f, mode o, weight o, o.imbalance.getD (1 / 20)⟩

/-- The points of the experiment. (src/exe/LB_Experiments.cpp:22-31) -/
inductive Source where
  | file (name : String)
  | gen (g : Generator) (n : Nat)
  deriving DecidableEq, Repr

/-- `execute` up to the construction of the experiment; dereferences the pointer to the generator.
(src/exe/LB_Experiments.cpp:14-37) -/
def execute (D : Nat) (o : Options) : Out (Source × Setup) :=
  Out.bind
    (match o.points with
      | some f => Out.ok (Source.file f)
      | none => (createGenerator D o).bind fun pg => (Out.ofOption o.n).bind fun n =>
          match pg with
          | some g => .ok (.gen g n)
          | none => .ub)
    fun s => (createPartitioner o).bind fun p => .ok (s, p)

/-- `main`: `dim` is not initialised. (src/exe/LB_Experiments.cpp:55-118) -/
def main (o : Options) : Out (Nat × Source × Setup) :=
  if o.help then .message
  else if ¬ (o.n.isSome ∨ o.points.isSome) then .message
  else if ¬ o.partitioner.isSome then .message
  else if ¬ (o.distribution.isSome ∨ o.points.isSome) then .message
  else match o.dim with
    | none => .ub
    | some d =>
      if d = 2 then (execute 2 o).bind fun r => .ok (2, r)
      else if d = 3 then (execute 3 o).bind fun r => .ok (3, r)
      else .message

/-! ### The constructor of the experiment -/

/-- The two arguments of the triangulator that use the partitioner. (include/load_balancing/Experiment.h:52) -/
inductive Arg where
  /-- `std::move(partitioner)`, which initialises the parameter. -/
  | move
  /-- `partitioner->info().find("bipartitioner") == npos` -/
  | info
  deriving DecidableEq, Repr

/-- Evaluation of the arguments in the order `l`: the partitioner (a null pointer after it was moved), the parameter and
the result of the search. (include/load_balancing/Experiment.h:52) -/
def evalArgs {α : Type} (info : α → Bool) : List Arg → Option α → Option α × Option Bool → Out (Option α × Option Bool)
  | [], _, r => .ok r
  | .move :: l, p, r => evalArgs info l none (p, r.2)
  | .info :: l, some p, r => evalArgs info l (some p) (r.1, some (info p))
  | .info :: _, none, _ => .ub

end Cli
end Verif

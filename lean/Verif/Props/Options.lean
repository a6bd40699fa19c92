import Verif.Model.Options
import Mathlib.Tactic.Tauto

/-!
# C112: a command line is carried out as requested or rejected
-/
namespace Verif
namespace Cli

/-- The distributions, the partitioners and the bounds that the program knows. -/
def distributions : List String :=
  ["ellipsoid", "skew-line", "normal", "uniform", "bubble", "unbound-bubble", "patch-bubble", "malicious-bubble"]

def partitioners : List String :=
  ["binary-besp", "center-distance-pasp", "bounds-distance-pasp", "nearest-sample-pasp", "nearest-sample-pasb",
    "hyperplane-sample-pasb", "kway-cycle", "dWay", "cycle", "extend", "one-dim"]

def weights : List String := ["uniform", "squared-inverted", "inverted", "linear", "log"]

def modes : List String := ["FAST", "ECO", "STRONG", "PAR"]

/-- The partitioners that use bounds of their parts. -/
def withBounds : List String :=
  ["center-distance-pasp", "bounds-distance-pasp", "nearest-sample-pasp", "nearest-sample-pasb"]

def Generator.name : Generator → String
  | .ellipsoid => "ellipsoid"
  | .skewLine => "skew-line"
  | .normal => "normal"
  | .uniform => "uniform"
  | .bubble => "bubble"
  | .unboundBubble _ _ => "unbound-bubble"
  | .patchBubble _ => "patch-bubble"
  | .maliciousBubble _ => "malicious-bubble"

def Partitioner.name : Partitioner → String
  | .besp => "binary-besp"
  | .centerDistance _ => "center-distance-pasp"
  | .boundsDistance _ => "bounds-distance-pasp"
  | .nearest _ => "nearest-sample-pasp"
  | .nearestBi _ => "nearest-sample-pasb"
  | .hyperplane => "hyperplane-sample-pasb"
  | .kway => "kway-cycle"
  | .dWay => "dWay"
  | .cycle => "cycle"
  | .extend => "extend"
  | .oneDim _ => "one-dim"
  | .flat p => p.name

def Weight.name : Weight → String
  | .uniform => "uniform"
  | .squaredInverted => "squared-inverted"
  | .inverted => "inverted"
  | .linear => "linear"
  | .log => "log"
  | .empty => ""

def Mode.name : Mode → String
  | .fast => "FAST"
  | .eco => "ECO"
  | .strong => "STRONG"
  | .par => "PAR"

theorem bind_ok {α β : Type} {a : Out α} {f : α → Out β} {b : β} : a.bind f = .ok b ↔ ∃ x, a = .ok x ∧ f x = .ok b := by
  cases a <;> simp [Out.bind]

theorem bind_ub {α β : Type} {a : Out α} {f : α → Out β} : a.bind f = .ub ↔ a = .ub ∨ ∃ x, a = .ok x ∧ f x = .ub := by
  cases a <;> simp [Out.bind]

theorem ofOption_ok {α : Type} {a : Option α} {x : α} : Out.ofOption a = .ok x ↔ a = some x := by
  cases a <;> simp [Out.ofOption]

theorem ofOption_ub {α : Type} {a : Option α} : Out.ofOption a ≠ .ub := by
  cases a <;> simp [Out.ofOption]

theorem createGenerator_ok {D : Nat} {o : Options} {g : Option Generator} (h : createGenerator D o = .ok g) :
    ∃ d, o.distribution = some d ∧ (d ∈ distributions → ∃ x, g = some x ∧ x.name = d) ∧ (d ∉ distributions → g = none) := by
  unfold createGenerator at h
  rw [bind_ok] at h
  obtain ⟨d, h1, h2⟩ := h
  refine ⟨d, ofOption_ok.1 h1, ?_⟩
  cases h2
  refine ⟨fun hm => ?_, fun hm => ?_⟩
  · simp only [distributions, List.mem_cons, List.not_mem_nil, or_false] at hm
    rcases hm with rfl | rfl | rfl | rfl | rfl | rfl | rfl | rfl <;> exact ⟨_, rfl, rfl⟩
  · simp only [distributions, List.mem_cons, List.not_mem_nil, or_false, not_or] at hm
    obtain ⟨h1, h2, h3, h4, h5, h6, h7, h8⟩ := hm
    simp only [Ne.symm h1, Ne.symm h2, Ne.symm h3, Ne.symm h4, Ne.symm h5, Ne.symm h6, Ne.symm h7, Ne.symm h8, if_false]

theorem createMaker_ub {o : Options} : createMaker o ≠ .ub := by
  unfold createMaker
  split
  · rw [Ne, bind_ub]
    simp [ofOption_ub]
  · split
    · rw [Ne, bind_ub]
      simp [ofOption_ub]
    · split
      · rw [Ne, bind_ub]
        simp [ofOption_ub]
      · split <;> simp

theorem createSize_ub {o : Options} : createSize o ≠ .ub := by
  unfold createSize
  split
  · simp
  · split
    · simp
    · split <;> simp
  · simp
  · simp

/-- The name decides which partitioner is created; only an unknown name leads to undefined behaviour. -/
theorem createNamed_spec (o : Options) (name : String) :
    (∀ p, createNamed o name = .ok p → name ∈ partitioners ∧ p.name = name ∧ ∀ q, p ≠ .flat q) ∧
    (createNamed o name = .ub ↔ name ∉ partitioners) := by
  have hm : ∀ c : Maker → Partitioner, (createMaker o).bind (fun m => Out.ok (c m)) ≠ .ub := by
    intro c
    rw [Ne, bind_ub]
    simp [createMaker_ub]
  have ho : (Out.ofOption o.splitDimension).bind (fun d => Out.ok (Partitioner.oneDim d)) ≠ .ub := by
    rw [Ne, bind_ub]
    simp [ofOption_ub]
  by_cases hmem : name ∈ partitioners
  · refine ⟨?_, iff_of_false ?_ (fun h => h hmem)⟩
    · intro p hp
      refine ⟨hmem, ?_⟩
      simp only [partitioners, List.mem_cons, List.not_mem_nil, or_false] at hmem
      rcases hmem with rfl | rfl | rfl | rfl | rfl | rfl | rfl | rfl | rfl | rfl | rfl <;>
        simp only [createNamed, String.reduceEq, if_false, if_true, bind_ok] at hp <;>
        first
          | (cases hp; exact ⟨rfl, by simp⟩)
          | (obtain ⟨m, _, hp⟩ := hp; cases hp; exact ⟨rfl, by simp⟩)
    · simp only [partitioners, List.mem_cons, List.not_mem_nil, or_false] at hmem
      rcases hmem with rfl | rfl | rfl | rfl | rfl | rfl | rfl | rfl | rfl | rfl | rfl <;>
        simp only [createNamed, String.reduceEq, if_false, if_true] <;>
        first
          | exact hm _
          | exact ho
          | simp
  · have h : createNamed o name = .ub := by
      simp only [partitioners, List.mem_cons, List.not_mem_nil, or_false, not_or] at hmem
      obtain ⟨h1, h2, h3, h4, h5, h6, h7, h8, h9, h10, h11⟩ := hmem
      simp only [createNamed, Ne.symm h1, Ne.symm h2, Ne.symm h3, Ne.symm h4, Ne.symm h5, Ne.symm h6, Ne.symm h7, Ne.symm h8,
        Ne.symm h9, Ne.symm h10, Ne.symm h11, if_false]
    refine ⟨fun p hp => ?_, iff_of_true h hmem⟩
    rw [h] at hp
    cases hp

/-- `main` reaches the switch over the dimensions. -/
def Complete (o : Options) : Prop :=
  o.help = false ∧ o.partitioner.isSome ∧ (o.points.isSome ∨ (o.n.isSome ∧ o.distribution.isSome))

theorem main_eq {o : Options} (h : Complete o) (d : Nat) (hd : o.dim = some d) (h23 : d = 2 ∨ d = 3) :
    main o = (execute d o).bind fun r => .ok (d, r) := by
  obtain ⟨h1, h2, h3⟩ := h
  unfold main
  rw [if_neg (by simp [h1]), if_neg (by tauto), if_neg (by simp [h2]), if_neg (by tauto), hd]
  rcases h23 with rfl | rfl <;> simp

theorem main_incomplete {o : Options} (h : ¬ Complete o) : main o = .message := by
  unfold main
  by_cases h1 : o.help = true
  · rw [if_pos h1]
  rw [if_neg h1]
  by_cases h2 : o.n.isSome ∨ o.points.isSome
  · rw [if_neg (not_not.2 h2)]
    by_cases h3 : o.partitioner.isSome
    · rw [if_neg (not_not.2 h3)]
      rw [if_pos]
      intro h4
      exact h ⟨by simpa using h1, h3, by tauto⟩
    · rw [if_pos h3]
  · rw [if_pos h2]

/-- **C112 (partial).** If the experiment is started, it has the dimension, the points and the partitioner that were
requested. Known names of weights and modes are respected; see `C112_details` for the other options.
Missing: unknown names of weights and modes, and split dimensions that do not exist, are accepted
(`C112_violated`); undefined behaviour for others (`C112_ub_iff`). -/
theorem C112_partial (o : Options) (d : Nat) (s : Source) (c : Setup) (h : main o = .ok (d, s, c)) :
    (d = 2 ∨ d = 3) ∧ o.dim = some d ∧
    (match s with
      | .file f => o.points = some f
      | .gen g n => o.points = none ∧ o.n = some n ∧ o.distribution = some g.name) ∧
    o.partitioner = some c.partitioner.name ∧
    (o.flatten = true ↔ ∃ p, c.partitioner = .flat p) ∧
    (∀ w ∈ weights, o.edgeWeights = some w → c.weight.name = w) ∧
    (∀ m ∈ modes, o.kaffpaMode = some m → c.mode.name = m) ∧
    (∀ x, o.imbalance = some x → c.imbalance = x) ∧
    (∀ n, o.sampleSize = some n → o.sampling = none ∧ c.size = .const n) := by
  by_cases hcomp : Complete o
  swap
  · rw [main_incomplete hcomp] at h
    cases h
  have hd : ∃ e, o.dim = some e ∧ (e = 2 ∨ e = 3) := by
    cases hdim : o.dim with
    | none =>
      obtain ⟨h1, h2, h3⟩ := hcomp
      unfold main at h
      rw [if_neg (by simp [h1]), if_neg (by tauto), if_neg (by simp [h2]), if_neg (by tauto), hdim] at h
      cases h
    | some e =>
      refine ⟨e, rfl, ?_⟩
      obtain ⟨h1, h2, h3⟩ := hcomp
      unfold main at h
      rw [if_neg (by simp [h1]), if_neg (by tauto), if_neg (by simp [h2]), if_neg (by tauto), hdim] at h
      by_contra hc
      rw [not_or] at hc
      simp [hc.1, hc.2] at h
  obtain ⟨e, hd1, hd2⟩ := hd
  rw [main_eq hcomp e hd1 hd2, bind_ok] at h
  obtain ⟨r, h1, h2⟩ := h
  cases h2
  unfold execute at h1
  rw [bind_ok] at h1
  obtain ⟨s', hs, h1⟩ := h1
  rw [bind_ok] at h1
  obtain ⟨c', hc, h1⟩ := h1
  cases h1
  refine ⟨hd2, hd1, ?_, ?_⟩
  · split at hs
    · rename_i f hf
      cases hs
      exact hf
    · rename_i hnone
      rw [bind_ok] at hs
      obtain ⟨pg, hg, hs⟩ := hs
      rw [bind_ok] at hs
      obtain ⟨n, hn, hs⟩ := hs
      obtain ⟨dn, hg1, hg2, hg3⟩ := createGenerator_ok hg
      by_cases hm : dn ∈ distributions
      · obtain ⟨x, rfl, hx⟩ := hg2 hm
        cases hs
        exact ⟨hnone, ofOption_ok.1 hn, by rw [hx]; exact hg1⟩
      · rw [hg3 hm] at hs
        cases hs
  · unfold createPartitioner at hc
    rw [bind_ok] at hc
    obtain ⟨name, hname, hc⟩ := hc
    rw [bind_ok] at hc
    obtain ⟨f, hf, hc⟩ := hc
    rw [bind_ok] at hc
    obtain ⟨p, hp, hc⟩ := hc
    cases hc
    obtain ⟨_, hpn, hpf⟩ := (createNamed_spec o name).1 p hp
    refine ⟨?_, ?_, ?_, ?_, ?_, ?_⟩
    · rw [ofOption_ok.1 hname, ← hpn]
      cases o.flatten <;> rfl
    · cases ho : o.flatten
      · simp only [Bool.false_eq_true, if_false, false_iff]
        rintro ⟨q, hq⟩
        exact hpf q hq
      · simp
    · intro w hw ho
      simp only [weights, List.mem_cons, List.not_mem_nil, or_false] at hw
      simp only [weight, ho]
      rcases hw with rfl | rfl | rfl | rfl | rfl <;> rfl
    · intro m hm ho
      simp only [modes, List.mem_cons, List.not_mem_nil, or_false] at hm
      simp only [mode, ho]
      rcases hm with rfl | rfl | rfl | rfl <;> rfl
    · intro x hx
      simp only [hx, Option.getD_some]
    · intro n hn
      unfold createSize at hf
      rw [hn] at hf
      cases ho : o.sampling with
      | none =>
        rw [ho] at hf
        cases hf
        exact ⟨rfl, rfl⟩
      | some x =>
        rw [ho] at hf
        cases hf

/-- **C112 (undefined behaviour).** The program runs into undefined behaviour exactly if the options are complete and
the dimension is missing, or the name of the distribution is unknown, or the sample size is accepted and the name of the
partitioner is unknown. -/
theorem C112_ub_iff (o : Options) :
    main o = .ub ↔ Complete o ∧ (o.dim = none ∨ ((o.dim = some 2 ∨ o.dim = some 3) ∧
      ((o.points = none ∧ ∀ d, o.distribution = some d → d ∉ distributions) ∨
       ((o.points = none → ∃ d ∈ distributions, o.distribution = some d) ∧ (∃ f, createSize o = .ok f) ∧
        ∀ p, o.partitioner = some p → p ∉ partitioners)))) := by
  by_cases hcomp : Complete o
  swap
  · rw [main_incomplete hcomp]
    simp [hcomp]
  simp only [hcomp, true_and]
  cases hdim : o.dim with
  | none =>
    obtain ⟨h1, h2, h3⟩ := hcomp
    unfold main
    rw [if_neg (by simp [h1]), if_neg (by tauto), if_neg (by simp [h2]), if_neg (by tauto), hdim]
    simp
  | some e =>
    by_cases he : e = 2 ∨ e = 3
    swap
    · obtain ⟨h1, h2, h3⟩ := hcomp
      unfold main
      rw [if_neg (by simp [h1]), if_neg (by tauto), if_neg (by simp [h2]), if_neg (by tauto), hdim]
      rw [not_or] at he
      simp [he.1, he.2]
    · have he' : (some e = some 2 ∨ some e = some 3) := by simpa using he
      simp only [he', true_and, reduceCtorEq, false_or]
      rw [main_eq hcomp e hdim he, bind_ub]
      have hpart : createPartitioner o = .ub ↔ (∃ f, createSize o = .ok f) ∧ ∀ p, o.partitioner = some p → p ∉ partitioners := by
        obtain ⟨_, h2, _⟩ := hcomp
        obtain ⟨p, hp⟩ := Option.isSome_iff_exists.1 h2
        unfold createPartitioner
        rw [hp]
        simp only [Out.ofOption]
        rw [show ∀ f : String → Out Setup, (Out.ok p).bind f = f p from fun _ => rfl, bind_ub]
        simp only [createSize_ub, false_or]
        constructor
        · rintro ⟨f, hf, h⟩
          rw [bind_ub] at h
          rcases h with h | ⟨x, _, h⟩
          · refine ⟨⟨f, hf⟩, fun q hq => ?_⟩
            cases hq
            exact (createNamed_spec o p).2.1 h
          · cases h
        · rintro ⟨⟨f, hf⟩, h⟩
          refine ⟨f, hf, ?_⟩
          rw [bind_ub]
          exact Or.inl ((createNamed_spec o p).2.2 (h p rfl))
      unfold execute
      rw [bind_ub]
      cases hpts : o.points with
      | some f =>
        simp only [reduceCtorEq, false_or, false_and, false_implies, true_and, and_false, exists_const, or_false, exists_false,
          Out.ok.injEq, exists_eq_left']
        rw [bind_ub, hpart]
        simp
      | none =>
        obtain ⟨_, _, h3⟩ := hcomp
        obtain ⟨hn, hdn⟩ : o.n.isSome ∧ o.distribution.isSome := by simpa [hpts] using h3
        obtain ⟨n, hn⟩ := Option.isSome_iff_exists.1 hn
        obtain ⟨dn, hdn⟩ := Option.isSome_iff_exists.1 hdn
        obtain ⟨pg, hg⟩ : ∃ pg, createGenerator e o = .ok pg := by
          unfold createGenerator
          rw [hdn]
          exact ⟨_, rfl⟩
        obtain ⟨dn', hg1, hg2, hg3⟩ := createGenerator_ok hg
        rw [hdn] at hg1
        cases hg1
        simp only [hg, hn, Out.ofOption, Out.bind]
        by_cases hm : dn ∈ distributions
        · obtain ⟨x, rfl, hx⟩ := hg2 hm
          refine Iff.trans (b := createPartitioner o = .ub) ?_ ?_
          · cases createPartitioner o <;> simp
          · rw [hpart]
            simp only [hdn, Option.some.injEq, forall_eq', hm, not_true_eq_false, and_false, false_or, true_implies]
            exact ⟨fun h => ⟨⟨dn, hm, rfl⟩, h⟩, fun h => h.2⟩
        · rw [hg3 hm]
          simp [hdn, hm]

/-- A complete command line. -/
def exOptions : Options :=
  { dim := some 3, n := some 1000, distribution := some "bubble", partitioner := some "nearest-sample-pasp",
    cellWidth := some 1, edgeWeights := some "log", sampling := some "sqrt" }

/-- Non-vacuity: this command line is carried out. -/
example : main exOptions = .ok (3, .gen .bubble 1000, ⟨.nearest (.grid 1), .sqrt, .fast, .log, 1 / 20⟩) := by decide +kernel

/-! ### Which command lines are carried out -/

/-- The sample size is given by at most one option, and the name is known. -/
def SizeOk (o : Options) : Prop :=
  (o.sampleSize = none ∧ (o.sampling = none ∨ o.sampling = some "sqrt" ∨ o.sampling = some "log")) ∨
  (o.sampleSize.isSome ∧ o.sampling = none)

/-- The bounds are known, and the grids have a cell width. -/
def BoundsOk (o : Options) : Prop :=
  ((o.bounds = none ∨ o.bounds = some "grid" ∨ o.bounds = some "accurate-grid") ∧ o.cellWidth.isSome) ∨
  o.bounds = some "box" ∨ o.bounds = some "boxes"

/-- The bounds that were asked for. -/
def IsMaker (o : Options) : Maker → Prop
  | .grid w => (o.bounds = none ∨ o.bounds = some "grid") ∧ o.cellWidth = some w
  | .accurateGrid w => o.bounds = some "accurate-grid" ∧ o.cellWidth = some w
  | .boxes => o.bounds = some "box" ∨ o.bounds = some "boxes"

/-- The bounds of a partitioner. -/
def Partitioner.maker : Partitioner → Option Maker
  | .centerDistance m => some m
  | .boundsDistance m => some m
  | .nearest m => some m
  | .nearestBi m => some m
  | .flat p => p.maker
  | _ => none

/-- The dimension of a partitioner that splits only one. -/
def Partitioner.dimension : Partitioner → Option Nat
  | .oneDim d => some d
  | .flat p => p.dimension
  | _ => none

theorem createMaker_iff {o : Options} {m : Maker} : createMaker o = .ok m ↔ IsMaker o m := by
  unfold createMaker
  cases hb : o.bounds with
  | none => cases hw : o.cellWidth <;> cases m <;> simp [IsMaker, hb, hw, Out.bind, Out.ofOption]
  | some b =>
    by_cases h1 : b = "grid"
    · subst h1; cases hw : o.cellWidth <;> cases m <;> simp [IsMaker, hb, hw, Out.bind, Out.ofOption]
    by_cases h2 : b = "accurate-grid"
    · subst h2; cases hw : o.cellWidth <;> cases m <;> simp [IsMaker, hb, hw, Out.bind, Out.ofOption]
    by_cases h3 : b = "box" ∨ b = "boxes"
    · cases m <;> simp [IsMaker, hb, h1, h2, h3]
    · cases m <;> simp [IsMaker, hb, h1, h2, h3]

theorem createMaker_some {o : Options} : (∃ m, createMaker o = .ok m) ↔ BoundsOk o := by
  simp only [createMaker_iff]
  unfold BoundsOk
  constructor
  · rintro ⟨m, hm⟩
    cases m with
    | grid w => exact .inl ⟨hm.1.imp id .inl, by simp [hm.2]⟩
    | accurateGrid w => exact .inl ⟨.inr (.inr hm.1), by simp [hm.2]⟩
    | boxes => exact .inr hm
  · rintro (⟨h, hw⟩ | h)
    · obtain ⟨w, hw⟩ := Option.isSome_iff_exists.1 hw
      rcases h with h | h | h
      · exact ⟨.grid w, .inl h, hw⟩
      · exact ⟨.grid w, .inr h, hw⟩
      · exact ⟨.accurateGrid w, h, hw⟩
    · exact ⟨.boxes, h⟩

theorem createSize_some {o : Options} : (∃ f, createSize o = .ok f) ↔ SizeOk o := by
  unfold createSize SizeOk
  cases h1 : o.sampleSize <;> cases h2 : o.sampling with
  | none => simp
  | some s => by_cases h3 : s = "sqrt" <;> by_cases h4 : s = "log" <;> simp [h3, h4, eq_comm]

theorem createSize_eq {o : Options} {f : Size} (hf : createSize o = .ok f) :
    (∀ k, f = .const k ↔ o.sampleSize = some k) ∧ (f = .log ↔ o.sampling = some "log") := by
  unfold createSize at hf
  cases h1 : o.sampleSize <;> cases h2 : o.sampling with
  | none => rw [h1, h2] at hf; cases hf; simp
  | some s =>
    rw [h1, h2] at hf
    by_cases h3 : "sqrt" = s
    · subst h3; simp_all [eq_comm]
    by_cases h4 : "log" = s
    · subst h4; simp_all [eq_comm]
    · simp [h3, h4] at hf

theorem createGenerator_eq {D : Nat} {o : Options} {g : Generator} (h : createGenerator D o = .ok (some g)) :
    (∀ num r, g = .unboundBubble num r → num = o.numBubbles.getD (4 ^ D) ∧ r = o.bubbleRadius.getD 10) ∧
    ∀ num, g = .patchBubble num ∨ g = .maliciousBubble num → num = o.numBubbles.getD (4 ^ D) := by
  unfold createGenerator at h
  obtain ⟨dn, _, hx⟩ := bind_ok.1 h
  have hx := Out.ok.inj hx
  clear h
  split_ifs at hx
  all_goals
    cases hx
    refine ⟨?_, ?_⟩
    · rintro num r h
      cases h
      try exact ⟨rfl, rfl⟩
    · rintro num (h | h) <;> cases h <;> rfl

theorem createNamed_some {o : Options} {name : String} (hn : name ∈ partitioners) :
    (∃ p, createNamed o name = .ok p) ↔ (name ∈ withBounds → BoundsOk o) ∧ (name = "one-dim" → o.splitDimension.isSome) := by
  have hb : ∀ c : Maker → Partitioner, (∃ p, (createMaker o).bind (fun m => Out.ok (c m)) = .ok p) ↔ BoundsOk o := by
    intro c
    rw [← createMaker_some]
    constructor
    · rintro ⟨p, h⟩
      obtain ⟨m, hm, _⟩ := bind_ok.1 h
      exact ⟨m, hm⟩
    · rintro ⟨m, hm⟩
      exact ⟨c m, bind_ok.2 ⟨m, hm, rfl⟩⟩
  simp only [partitioners, List.mem_cons, List.not_mem_nil, or_false] at hn
  rcases hn with rfl | rfl | rfl | rfl | rfl | rfl | rfl | rfl | rfl | rfl | rfl
  all_goals simp only [createNamed, withBounds, String.reduceEq, if_false, if_true, List.mem_cons, List.not_mem_nil, or_false, or_true,
    true_or, false_implies, true_implies, and_true, true_and, hb]
  all_goals first
    | (cases o.splitDimension <;> simp [Out.ofOption, Out.bind])
    | simp

/-- **C112 (accepted command lines).** The experiment is started exactly if the options are complete, the dimension is 2 or 3, the names of
the distribution and of the partitioner are known, the sample size is not given twice and has a known name, and the bounds or the split
dimension are given properly if the partitioner needs them. -/
theorem C112_starts_iff (o : Options) :
    (∃ r, main o = .ok r) ↔ Complete o ∧ (o.dim = some 2 ∨ o.dim = some 3) ∧
      (o.points = none → ∃ d ∈ distributions, o.distribution = some d) ∧ SizeOk o ∧
      ∃ p ∈ partitioners, o.partitioner = some p ∧ (p ∈ withBounds → BoundsOk o) ∧ (p = "one-dim" → o.splitDimension.isSome) := by
  by_cases hcomp : Complete o
  swap
  · rw [main_incomplete hcomp]
    simp [hcomp]
  by_cases hd : ∃ e, o.dim = some e ∧ (e = 2 ∨ e = 3)
  swap
  · have h23 : ¬ (o.dim = some 2 ∨ o.dim = some 3) := by
      rintro (h | h)
      · exact hd ⟨2, h, .inl rfl⟩
      · exact hd ⟨3, h, .inr rfl⟩
    refine iff_of_false ?_ (fun h => h23 h.2.1)
    rintro ⟨⟨d, s, c⟩, h⟩
    obtain ⟨h1, h2, _⟩ := C112_partial o d s c h
    exact hd ⟨d, h2, h1⟩
  obtain ⟨e, he, h23⟩ := hd
  have hex : (∃ r, main o = .ok r) ↔ ∃ r, execute e o = .ok r := by
    rw [main_eq hcomp e he h23]
    constructor
    · rintro ⟨r, h⟩
      obtain ⟨x, hx, _⟩ := bind_ok.1 h
      exact ⟨x, hx⟩
    · rintro ⟨r, h⟩
      exact ⟨_, bind_ok.2 ⟨r, h, rfl⟩⟩
  have hpart : (∃ c, createPartitioner o = .ok c) ↔ SizeOk o ∧
      ∃ p ∈ partitioners, o.partitioner = some p ∧ (p ∈ withBounds → BoundsOk o) ∧ (p = "one-dim" → o.splitDimension.isSome) := by
    unfold createPartitioner
    constructor
    · rintro ⟨c, h⟩
      obtain ⟨name, h1, h⟩ := bind_ok.1 h
      obtain ⟨f, h2, h⟩ := bind_ok.1 h
      obtain ⟨p, h3, _⟩ := bind_ok.1 h
      have hm := ((createNamed_spec o name).1 p h3).1
      exact ⟨createSize_some.1 ⟨f, h2⟩, name, hm, ofOption_ok.1 h1, (createNamed_some hm).1 ⟨p, h3⟩⟩
    · rintro ⟨h1, name, hm, h2, h3⟩
      obtain ⟨f, hf⟩ := createSize_some.2 h1
      obtain ⟨p, hp⟩ := (createNamed_some hm).2 h3
      exact ⟨_, bind_ok.2 ⟨name, ofOption_ok.2 h2, bind_ok.2 ⟨f, hf, bind_ok.2 ⟨p, hp, rfl⟩⟩⟩⟩
  have hsrc : (∃ r, execute e o = .ok r) ↔ (o.points = none → ∃ d ∈ distributions, o.distribution = some d) ∧
      ∃ c, createPartitioner o = .ok c := by
    unfold execute
    cases hpts : o.points with
    | some f =>
      simp only [reduceCtorEq, false_implies, true_and]
      constructor
      · rintro ⟨r, h⟩
        obtain ⟨_, _, h⟩ := bind_ok.1 h
        obtain ⟨c, hc, _⟩ := bind_ok.1 h
        exact ⟨c, hc⟩
      · rintro ⟨c, hc⟩
        exact ⟨_, bind_ok.2 ⟨_, rfl, bind_ok.2 ⟨c, hc, rfl⟩⟩⟩
    | none =>
      simp only [true_implies]
      constructor
      · rintro ⟨r, h⟩
        obtain ⟨s, hs, h⟩ := bind_ok.1 h
        obtain ⟨c, hc, _⟩ := bind_ok.1 h
        obtain ⟨pg, hg, hs⟩ := bind_ok.1 hs
        obtain ⟨n, hn, hs⟩ := bind_ok.1 hs
        obtain ⟨d, hd1, _, hd3⟩ := createGenerator_ok hg
        refine ⟨⟨d, ?_, hd1⟩, c, hc⟩
        by_contra hm
        rw [hd3 hm] at hs
        cases hs
      · rintro ⟨⟨d, hm, hdist⟩, c, hc⟩
        obtain ⟨_, _, h3⟩ := hcomp
        obtain ⟨hn, -⟩ : o.n.isSome ∧ o.distribution.isSome := by simpa [hpts] using h3
        obtain ⟨n, hn⟩ := Option.isSome_iff_exists.1 hn
        obtain ⟨pg, hg⟩ : ∃ pg, createGenerator e o = .ok pg := by
          unfold createGenerator
          rw [hdist]
          exact ⟨_, rfl⟩
        obtain ⟨d', hd1, hd2, _⟩ := createGenerator_ok hg
        rw [hdist] at hd1
        cases hd1
        obtain ⟨x, rfl, _⟩ := hd2 hm
        exact ⟨_, bind_ok.2 ⟨_, bind_ok.2 ⟨_, hg, bind_ok.2 ⟨n, ofOption_ok.2 hn, rfl⟩⟩, bind_ok.2 ⟨c, hc, rfl⟩⟩⟩
  rw [hex, hsrc, hpart]
  have h23' : o.dim = some 2 ∨ o.dim = some 3 := by rw [he]; simpa using h23
  simp only [hcomp, h23', true_and]

/-- **C112 (details).** If the experiment is started, the bounds, the split dimension, the sample size and the parameters of the bubbles are
the given ones, and options that are not given have the documented defaults. -/
theorem C112_details (o : Options) (d : Nat) (s : Source) (c : Setup) (h : main o = .ok (d, s, c)) :
    (c.partitioner.name ∈ withBounds ↔ ∃ m, c.partitioner.maker = some m) ∧
    (∀ m, c.partitioner.maker = some m → IsMaker o m) ∧
    (∀ k, c.partitioner.dimension = some k → o.splitDimension = some k) ∧
    (∀ k, c.size = .const k ↔ o.sampleSize = some k) ∧ (c.size = .log ↔ o.sampling = some "log") ∧
    (o.edgeWeights = none → c.weight = .uniform) ∧ (o.kaffpaMode = none → c.mode = .fast) ∧ (o.imbalance = none → c.imbalance = 1 / 20) ∧
    (∀ n num r, s = .gen (.unboundBubble num r) n → num = o.numBubbles.getD (4 ^ d) ∧ r = o.bubbleRadius.getD 10) ∧
    (∀ n num, s = .gen (.patchBubble num) n ∨ s = .gen (.maliciousBubble num) n → num = o.numBubbles.getD (4 ^ d)) := by
  obtain ⟨h23, hd, -⟩ := C112_partial o d s c h
  have hcomp : Complete o := by
    by_contra hc
    rw [main_incomplete hc] at h
    cases h
  rw [main_eq hcomp d hd h23] at h
  obtain ⟨r, h1, h2⟩ := bind_ok.1 h
  cases h2
  unfold execute at h1
  obtain ⟨s', hs, h1⟩ := bind_ok.1 h1
  obtain ⟨c', hc, h1⟩ := bind_ok.1 h1
  cases h1
  have hgen : ∀ g n, s = .gen g n → createGenerator d o = .ok (some g) := by
    rintro g n rfl
    split at hs
    · cases hs
    · obtain ⟨pg, hg, hs⟩ := bind_ok.1 hs
      obtain ⟨n', _, hs⟩ := bind_ok.1 hs
      cases pg with
      | none => cases hs
      | some g' => cases hs; exact hg
  unfold createPartitioner at hc
  obtain ⟨name, hname, hc⟩ := bind_ok.1 hc
  obtain ⟨f, hf, hc⟩ := bind_ok.1 hc
  obtain ⟨p, hp, hc⟩ := bind_ok.1 hc
  cases hc
  have hmk : ∀ q : Partitioner, (if o.flatten then Partitioner.flat q else q).maker = q.maker := by
    intro q; cases o.flatten <;> rfl
  have hdm : ∀ q : Partitioner, (if o.flatten then Partitioner.flat q else q).dimension = q.dimension := by
    intro q; cases o.flatten <;> rfl
  have hnm : ∀ q : Partitioner, (if o.flatten then Partitioner.flat q else q).name = q.name := by
    intro q; cases o.flatten <;> rfl
  simp only [hmk, hdm, hnm]
  have hpp : (p.name ∈ withBounds ↔ ∃ m, p.maker = some m) ∧ (∀ m, p.maker = some m → IsMaker o m) ∧
      ∀ k, p.dimension = some k → o.splitDimension = some k := by
    have hm := ((createNamed_spec o name).1 p hp).1
    simp only [partitioners, List.mem_cons, List.not_mem_nil, or_false] at hm
    rcases hm with rfl | rfl | rfl | rfl | rfl | rfl | rfl | rfl | rfl | rfl | rfl <;>
      simp only [createNamed, String.reduceEq, if_false, if_true, bind_ok] at hp
    all_goals first
      | (obtain ⟨m, hm, hp⟩ := hp; cases hp
         first
          | simp [Partitioner.name, withBounds, Partitioner.maker, Partitioner.dimension, createMaker_iff.1 hm]
          | simp [Partitioner.name, withBounds, Partitioner.maker, Partitioner.dimension, ofOption_ok.1 hm])
      | (cases hp; simp [Partitioner.name, withBounds, Partitioner.maker, Partitioner.dimension])
  refine ⟨hpp.1, hpp.2.1, hpp.2.2, ?_, ?_, ?_, ?_, ?_, ?_, ?_⟩
  · exact (createSize_eq hf).1
  · exact (createSize_eq hf).2
  · intro hw; simp [weight, hw]
  · intro hm; simp [mode, hm]
  · intro hi; simp [hi]
  · exact fun n num r hg => (createGenerator_eq (hgen _ _ hg)).1 num r rfl
  · exact fun n num hg => hg.elim (fun hg => (createGenerator_eq (hgen _ _ hg)).2 num (.inl rfl))
      (fun hg => (createGenerator_eq (hgen _ _ hg)).2 num (.inr rfl))

/-- **C112 is violated.** An unknown distribution or partitioner makes the program dereference a null pointer; without a
dimension an uninitialised variable is read. An unknown name of the edge weights is accepted, with a function that cannot
be called; an unknown mode of KaHIP and a split dimension that does not exist are accepted, too. -/
theorem C112_violated :
    main { exOptions with distribution := some "normall" } = .ub ∧
    main { exOptions with partitioner := some "nearest-sample" } = .ub ∧
    main { exOptions with dim := none } = .ub ∧
    (∃ s c, main { exOptions with edgeWeights := some "logarithm" } = .ok (3, s, c) ∧ c.weight = .empty) ∧
    (∃ s c, main { exOptions with kaffpaMode := some "FASTER" } = .ok (3, s, c)) ∧
    (∃ s c, main { exOptions with partitioner := some "one-dim", splitDimension := some 3 } = .ok (3, s, c) ∧
      c.partitioner = .oneDim 3) := by
  refine ⟨by decide +kernel, by decide +kernel, by decide +kernel,
    ⟨.gen .bubble 1000, ⟨.nearest (.grid 1), .sqrt, .fast, .empty, 1 / 20⟩, by decide +kernel, rfl⟩,
    ⟨.gen .bubble 1000, ⟨.nearest (.grid 1), .sqrt, .fast, .log, 1 / 20⟩, by decide +kernel⟩,
    ⟨.gen .bubble 1000, ⟨.oneDim 3, .sqrt, .fast, .log, 1 / 20⟩, by decide +kernel, rfl⟩⟩

/-- **C112 is violated (order of evaluation).** The constructor of the experiment moves the partitioner and asks it for
its name in the arguments of one call, the order of which is not specified: it works in one order and dereferences a null
pointer in the other one. -/
theorem C112_order_violated {α : Type} (info : α → Bool) (p : α) :
    evalArgs info [.info, .move] (some p) (none, none) = .ok (some p, some (info p)) ∧
    evalArgs info [.move, .info] (some p) (none, none) = .ub := ⟨rfl, rfl⟩

end Cli
end Verif

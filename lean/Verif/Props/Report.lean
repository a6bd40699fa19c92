import Verif.Model.Report
import Verif.Lemmas.Json
import Mathlib.Tactic.IntervalCases
import Mathlib.Data.List.Induction
import Mathlib.Data.List.Forall2

/-!
# C115, C116: the report of an experiment
-/
namespace Verif
namespace Report
open Json

/-! ### What the report should say -/

/-- A number of a report. -/
def jn (n : Nat) : J := .num (n : ℚ)

/-- The sizes of the leaves in a sequence of calls of the monitor. -/
def sizesOf (es : List Event) : List Nat := es.flatMap fun | .partition l _ => l | _ => []

/-- The base triangulations. -/
def basesOf (es : List Event) : List (Nat × List Char) := es.filterMap fun | .base n p => some (n, p) | _ => none

/-- The last size of a sample, 0 without a sample. -/
def sampleOf (es : List Event) : Nat := (es.filterMap fun | .partition _ s => s | _ => none).getLast?.getD 0

/-- The last duration of the partitioning. -/
def partitionTimeOf (es : List Event) : Int := (es.filterMap fun | .partitionEnd t => some t | _ => none).getLast?.getD 0

/-- The last duration of the triangulation. -/
def triangulationTimeOf (es : List Event) : Int :=
  (es.filterMap fun | .triangulationEnd t => some t | _ => none).getLast?.getD 0

/-- A result as JSON value, for the calls `es` of the monitor. -/
def result (verify : Bool) (es : List Event) (simplices : Nat) (valid : Bool) : J :=
  .obj ([(txt! "partitiontime", .num (partitionTimeOf es : ℚ)),
      (txt! "triangulationtime", .num (triangulationTimeOf es : ℚ)),
      (txt! "triangulatedPoints", jn ((basesOf es).map Prod.fst).sum),
      (txt! "simplices", jn simplices),
      (txt! "sampleSize", jn (sampleOf es))] ++
    (if verify then [(txt! "valid", .bool valid)] else []) ++
    [(txt! "partitions", .arr ((sizesOf es).map fun n => .obj [(txt! "size", jn n)])),
      (txt! "basetriangulations",
        .arr ((basesOf es).map fun b => .obj [(txt! "points", jn b.1), (txt! "provenance", .str b.2)]))])

/-- A report as JSON value. -/
def report (s : Setup) (results : List J) : J :=
  .obj [(txt! "commit", .str s.commit), (txt! "date", .str s.date), (txt! "args", .str s.args),
    (txt! "triangulator", .str txt! "load balanced DC Triangulator"), (txt! "partitioner", .str s.partitioner),
    (txt! "distribution", .str s.distribution), (txt! "numpoints", jn s.points), (txt! "threads", jn s.threads),
    (txt! "seed", jn s.seed), (txt! "results", .arr results)]

/-- The results for the calls of all runs up to the present one; `es`: the calls of earlier runs. -/
def cumulative (verify : Bool) : List Event → List Run → List J
  | _, [] => []
  | es, r :: l => result verify (es ++ r.events) r.simplices r.valid :: cumulative verify (es ++ r.events) l

/-- The results for the calls of each run. -/
def separate (verify : Bool) (rs : List Run) : List J :=
  rs.map fun r => result verify r.events r.simplices r.valid

/-- Strings that need no escapes. -/
def Plain (l : List Char) : Prop := ∀ c ∈ l, 32 ≤ c.toNat ∧ c ≠ '"' ∧ c ≠ '\\'

instance : DecidablePred Plain := fun l => inferInstanceAs (Decidable (∀ c ∈ l, _))

/-- All strings of a report except for the arguments need no escapes. -/
def PlainRest (s : Setup) (rs : List Run) : Prop :=
  Plain s.commit ∧ Plain s.date ∧ Plain s.partitioner ∧ Plain s.distribution ∧
    ∀ r ∈ rs, ∀ b ∈ basesOf r.events, Plain b.2

/-! ### Numbers and strings -/

theorem digit_isDigit (n : Nat) : IsDigit (digit n) ∧ (digit n).toNat = 48 + n % 10 := by
  have h : n % 10 < 10 := Nat.mod_lt _ (by omega)
  have hv : (digit n).toNat = 48 + n % 10 := by
    unfold digit
    interval_cases n % 10 <;> rfl
  exact ⟨by unfold IsDigit; omega, hv⟩

theorem value_append (a : List Char) (c : Char) : value (a ++ [c]) = 10 * value a + (c.toNat - 48) := by
  simp [value, List.foldl_append]

theorem nat_spec (n : Nat) : (∀ c ∈ nat n, IsDigit c) ∧ value (nat n) = n ∧
    (∃ c t, nat n = c :: t ∧ (c = '0' → n = 0)) ∧ (n = 0 → nat n = ['0']) := by
  induction n using Nat.strong_induction_on with
  | _ n ih =>
    rw [nat]
    split
    · rename_i h
      obtain ⟨h1, h2⟩ := digit_isDigit n
      rw [Nat.mod_eq_of_lt h] at h2
      refine ⟨by simpa using h1, by simp [value, h2], ⟨_, [], rfl, ?_⟩, ?_⟩
      · intro h0
        rw [h0] at h2
        have : '0'.toNat = 48 := rfl
        omega
      · rintro rfl; rfl
    · rename_i h
      obtain ⟨h1, h2, ⟨c, t, h3, h3'⟩, h4⟩ := ih (n / 10) (by omega)
      obtain ⟨g1, g2⟩ := digit_isDigit n
      refine ⟨?_, ?_, ⟨c, t ++ [digit n], by rw [h3]; rfl, ?_⟩, by omega⟩
      · intro d hd
        rcases List.mem_append.1 hd with hd | hd
        · exact h1 d hd
        · rw [List.mem_singleton] at hd
          rw [hd]; exact g1
      · rw [value_append, h2, g2]; omega
      · intro hc; have := h3' hc; omega

theorem nat_isInt (n : Nat) : IsInt (nat n) := by
  obtain ⟨h1, -, ⟨c, t, h3, h3'⟩, h4⟩ := nat_spec n
  refine ⟨h1, ?_⟩
  by_cases hc : c = '0'
  · exact Or.inl (h4 (h3' hc))
  · exact Or.inr ⟨c, t, h3, hc⟩

theorem nat_num (n : Nat) : Num (n : ℚ) (nat n) := by
  have := Num.mk false (nat n) [] [] 0 [] (nat_isInt n) .none .none
  simpa [(nat_spec n).2.1] using this

theorem int_num (z : Int) : Num (z : ℚ) (int z) := by
  cases z with
  | ofNat n => simpa [int] using nat_num n
  | negSucc n =>
    have := Num.mk true (nat (n + 1)) [] [] 0 [] (nat_isInt _) .none .none
    simpa [(nat_spec (n + 1)).2.1, int, Int.negSucc_eq] using this

theorem plain_body {l : List Char} (h : Plain l) : Body l l := by
  induction l with
  | nil => exact .nil
  | cons c l ih =>
    obtain ⟨h1, h2, h3⟩ := h c (by simp)
    exact .plain c l l h1 h2 h3 (ih fun d hd => h d (by simp [hd]))

/-! ### Events -/

theorem getD_append (l : List Nat) (x d : Nat) : (l ++ [x]).getLast?.getD d = x := by simp

theorem acc_event (es : List Event) :
    es.foldl Acc.event .new = ⟨partitionTimeOf es, triangulationTimeOf es, ((basesOf es).map Prod.fst).sum, sizesOf es,
      basesOf es, sampleOf es⟩ := by
  induction es using List.reverseRecOn with
  | nil => rfl
  | append_singleton es e ih =>
    rw [List.foldl_append, ih]
    cases e with
    | base n p =>
      simp [Acc.event, partitionTimeOf, triangulationTimeOf, basesOf, sizesOf, sampleOf, List.filterMap_append]
    | partition l s =>
      cases s <;>
        simp [Acc.event, partitionTimeOf, triangulationTimeOf, basesOf, sizesOf, sampleOf, List.filterMap_append]
    | partitionEnd t =>
      simp [Acc.event, partitionTimeOf, triangulationTimeOf, basesOf, sizesOf, sampleOf, List.filterMap_append]
    | triangulationEnd t =>
      simp [Acc.event, partitionTimeOf, triangulationTimeOf, basesOf, sizesOf, sampleOf, List.filterMap_append]

/-! ### The text -/

theorem cast {a : Sym} {s s' : List Char} (h : Der a s) (e : s = s') : Der a s' := e ▸ h

theorem der_elem {j : J} {s : List Char} (w : List Char) (hw : Ws w) (h : Der (.val j) s) :
    Der (.elem j) ([' '] ++ (s ++ w)) := .elem _ _ _ _ (by simp [Ws]) hw h

theorem der_mem {k : List Char} {j : J} {s : List Char} (v : List Char) (hv : Ws v) (hk : Plain k)
    (h : Der (.elem j) s) : Der (.mem k j) (v ++ ('"' :: (k ++ ('"' :: ([] ++ (':' :: s)))))) :=
  .mem _ _ _ _ _ _ hv (plain_body hk) (by simp [Ws]) h

theorem der_nat (n : Nat) : Der (.val (jn n)) (nat n) := .num _ _ (nat_num n)

theorem der_str {l : List Char} (h : Plain l) : Der (.val (.str l)) ('"' :: (l ++ ['"'])) := .str _ _ (plain_body h)

theorem der_ws {j : J} {s w : List Char} (h : Der (.elem j) s) (hw : Ws w) : Der (.elem j) (s ++ w) := by
  cases h with
  | elem _ v s w' hv hw' h =>
    refine cast (.elem _ v s (w' ++ w) hv ?_ h) (by simp)
    intro c hc
    rcases List.mem_append.1 hc with hc | hc
    · exact hw' c hc
    · exact hw c hc

/-- The elements written by a loop that puts a comma before all but the first one. -/
theorem der_elems {js : List J} {ss : List (List Char)} (h : List.Forall₂ (fun j s => Der (.elem j) s) js ss) :
    ∀ {j : J} {s w : List Char}, Der (.elem j) s → Ws w →
      Der (.elems (j :: js)) (s ++ (ss.flatMap (fun s => ',' :: s) ++ w)) := by
  induction h with
  | nil => intro j s w hj hw; exact .one _ _ (der_ws hj hw)
  | cons h1 h2 ih =>
    intro j s w hj hw
    exact cast (.more _ _ _ _ hj (ih h1 hw)) (by simp)

/-- The text of one leaf. -/
def sizeText (n : Nat) : List Char :=
  txt! " {\n" ++ (txt! "                      \"size\": " ++ nat n ++ txt! "\n") ++ txt! "                }"

/-- The text of one base triangulation. -/
def baseText (b : Nat × List Char) : List Char :=
  txt! " {\n" ++ (txt! "                        \"points\": " ++ nat b.1 ++ txt! ",\n") ++
    (txt! "                        \"provenance\": \"" ++ b.2 ++ txt! "\"\n") ++ txt! "                }"

theorem sizesLoop_false (l : List Nat) : sizesLoop false l = (l.map sizeText).flatMap (fun s => ',' :: s) := by
  induction l with
  | nil => rfl
  | cons n l ih => simp [sizesLoop, sizeText, ih]

theorem baseLoop_false (l : List (Nat × List Char)) :
    baseLoop false l = (l.map baseText).flatMap (fun s => ',' :: s) := by
  induction l with
  | nil => rfl
  | cons b l ih => obtain ⟨n, p⟩ := b; simp [baseLoop, baseText, ih]

theorem sizeText_der (n : Nat) : Der (.elem (.obj [(txt! "size", jn n)])) (sizeText n) := by
  refine cast (.elem _ [' '] _ [] (by simp [Ws]) (by simp [Ws]) (.obj _ _ (.one' _ _ _
    (der_mem (txt! "\n                      ") (by simp [Ws]) (by decide)
      (der_elem (txt! "\n                ") (by simp [Ws]) (der_nat n)))))) ?_
  simp [sizeText]

theorem baseText_der (b : Nat × List Char) (h : Plain b.2) :
    Der (.elem (.obj [(txt! "points", jn b.1), (txt! "provenance", .str b.2)])) (baseText b) := by
  refine cast (.elem _ [' '] _ [] (by simp [Ws]) (by simp [Ws]) (.obj _ _ (.more' _ _ _ _ _
    (der_mem (txt! "\n                        ") (by simp [Ws]) (by decide)
      (der_elem [] (by simp [Ws]) (der_nat b.1)))
    (.one' _ _ _ (der_mem (txt! "\n                        ") (by simp [Ws]) (by decide)
      (der_elem (txt! "\n                ") (by simp [Ws]) (der_str h))))))) ?_
  simp [baseText]

theorem sizes_der (l : List Nat) : Der (.val (.arr (l.map fun n => .obj [(txt! "size", jn n)])))
    ('[' :: ((sizesLoop true l ++ txt! "\n            ") ++ [']'])) := by
  cases l with
  | nil => exact .arr0 _ (by simp [sizesLoop, Ws])
  | cons n l =>
    refine .arr _ _ (cast (der_elems (ss := l.map sizeText) ?_ (sizeText_der n)
      (w := txt! "\n            ") (by simp [Ws])) ?_)
    · rw [List.forall₂_map_left_iff, List.forall₂_map_right_iff]
      exact List.forall₂_same.2 fun n _ => sizeText_der n
    · simp [sizesLoop, sizesLoop_false, sizeText]

theorem bases_der (l : List (Nat × List Char)) (h : ∀ b ∈ l, Plain b.2) :
    Der (.val (.arr (l.map fun b => .obj [(txt! "points", jn b.1), (txt! "provenance", .str b.2)])))
      ('[' :: ((baseLoop true l ++ txt! "\n            ") ++ [']'])) := by
  cases l with
  | nil => exact .arr0 _ (by simp [baseLoop, Ws])
  | cons n l =>
    refine .arr _ _ (cast (der_elems (ss := l.map baseText) ?_ (baseText_der n (h n (by simp)))
      (w := txt! "\n            ") (by simp [Ws])) ?_)
    · rw [List.forall₂_map_left_iff, List.forall₂_map_right_iff]
      exact List.forall₂_same.2 fun n hn => baseText_der n (h n (by simp [hn]))
    · simp [baseLoop, baseLoop_false, baseText]

/-- The text of one result. -/
def runText (verify : Bool) (a : Acc) (r : Run) : List Char := run verify true a r

theorem run_false (verify : Bool) (a : Acc) (r : Run) : run verify false a r = ',' :: runText verify a r := by
  simp only [run, runText, List.append_assoc]
  rfl

set_option maxRecDepth 4000 in
theorem runText_der (verify : Bool) (es : List Event) (r : Run) (h : ∀ b ∈ basesOf es, Plain b.2) :
    Der (.elem (result verify es r.simplices r.valid)) (runText verify (es.foldl Acc.event .new) r) := by
  rw [acc_event]
  obtain ⟨L, hL, last⟩ : ∃ L, L = txt! "\n            \"partitions\": [" ++ (sizesLoop true (sizesOf es) ++
      (txt! "\n            ],\n            \"basetriangulations\": [" ++ (baseLoop true (basesOf es) ++
        txt! "\n            ]\n        "))) ∧
      Der (.mems [(txt! "partitions", .arr ((sizesOf es).map fun n => .obj [(txt! "size", jn n)])),
      (txt! "basetriangulations",
        .arr ((basesOf es).map fun b => .obj [(txt! "points", jn b.1), (txt! "provenance", .str b.2)]))]) L := by
    refine ⟨_, rfl, cast (.more' _ _ _ _ _ (der_mem (txt! "\n            ") (by simp [Ws]) (by decide)
        (der_elem [] (by simp [Ws]) (sizes_der (sizesOf es))))
      (.one' _ _ _ (der_mem (txt! "\n            ") (by simp [Ws]) (by decide)
        (der_elem (txt! "\n        ") (by simp [Ws]) (bases_der (basesOf es) h))))) ?_⟩
    simp
  have mid : Der (.mems ((if verify then [(txt! "valid", .bool r.valid)] else []) ++
      [(txt! "partitions", .arr ((sizesOf es).map fun n => .obj [(txt! "size", jn n)])),
      (txt! "basetriangulations",
        .arr ((basesOf es).map fun b => .obj [(txt! "points", jn b.1), (txt! "provenance", .str b.2)]))]))
      ((if verify then
        txt! "\n            \"valid\": " ++ (if r.valid then txt! "true" else txt! "false") ++ txt! "," else []) ++ L) := by
    cases verify
    · exact last
    · have hv : Der (.val (.bool r.valid)) (if r.valid then txt! "true" else txt! "false") := by
        cases r.valid
        · exact .fals
        · exact .tru
      refine cast (.more' _ _ _ _ _ (der_mem (txt! "\n            ") (by simp [Ws]) (by decide)
        (der_elem [] (by simp [Ws]) hv)) last) ?_
      simp
  refine cast (.elem _ [' '] _ (txt! "\n") (by simp [Ws]) (by simp [Ws]) (.obj _ _
    (.more' _ _ _ _ _ (der_mem (txt! "\n            ") (by simp [Ws]) (by decide)
        (der_elem [] (by simp [Ws]) (.num _ _ (int_num (partitionTimeOf es)))))
    (.more' _ _ _ _ _ (der_mem (txt! "\n            ") (by simp [Ws]) (by decide)
        (der_elem [] (by simp [Ws]) (.num _ _ (int_num (triangulationTimeOf es)))))
    (.more' _ _ _ _ _ (der_mem (txt! "\n            ") (by simp [Ws]) (by decide)
        (der_elem [] (by simp [Ws]) (der_nat _)))
    (.more' _ _ _ _ _ (der_mem (txt! "\n            ") (by simp [Ws]) (by decide)
        (der_elem [] (by simp [Ws]) (der_nat _)))
    (.more' _ _ _ _ _ (der_mem (txt! "\n            ") (by simp [Ws]) (by decide)
        (der_elem [] (by simp [Ws]) (der_nat _))) mid))))))) ?_
  subst hL
  cases verify <;> simp [runText, run]

theorem runs_der (verify : Bool) : ∀ (l : List Run) (es : List Event), (∀ b ∈ basesOf es, Plain b.2) →
    (∀ r ∈ l, ∀ b ∈ basesOf r.events, Plain b.2) →
    ∃ ts, runs verify false (es.foldl Acc.event .new) l = ts.flatMap (fun s => ',' :: s) ∧
      List.Forall₂ (fun j s => Der (.elem j) s) (cumulative verify es l) ts
  | [], es, _, _ => ⟨[], rfl, .nil⟩
  | r :: l, es, he, h => by
    have he' : ∀ b ∈ basesOf (es ++ r.events), Plain b.2 := by
      intro b hb
      rw [basesOf, List.filterMap_append] at hb
      rcases List.mem_append.1 hb with hb | hb
      · exact he b hb
      · exact h r (by simp) b hb
    obtain ⟨ts, h1, h2⟩ := runs_der verify l (es ++ r.events) he' fun r' hr' => h r' (by simp [hr'])
    refine ⟨runText verify ((es ++ r.events).foldl Acc.event .new) r :: ts, ?_, .cons (runText_der _ _ _ he') h2⟩
    rw [runs, run_false, ← List.foldl_append, h1]
    simp

set_option maxRecDepth 4000 in
theorem results_der (verify : Bool) (l : List Run) (h : ∀ r ∈ l, ∀ b ∈ basesOf r.events, Plain b.2) :
    Der (.val (.arr (cumulative verify [] l))) ('[' :: ((runs verify true .new l ++ txt! "    ") ++ [']'])) := by
  cases l with
  | nil => exact .arr0 _ (by simp [runs, Ws])
  | cons r l =>
    have hr := h r (by simp)
    obtain ⟨ts, h1, h2⟩ := runs_der verify l r.events hr fun r' hr' => h r' (by simp [hr'])
    have h3 := der_elems h2 (runText_der verify r.events r hr) (w := txt! "    ") (by simp [Ws])
    rw [← h1] at h3
    refine .arr _ _ (cast h3 ?_)
    rw [runs, List.append_assoc]
    rfl

set_option maxRecDepth 8000 in
theorem experiment_der (s : Setup) (rs : List Run) (ha : Plain s.args) (h : PlainRest s rs) :
    Text (report s (cumulative s.verify [] rs)) (experiment s rs) := by
  obtain ⟨h1, h2, h3, h4, h5⟩ := h
  refine cast (.elem _ [] _ (txt! "\n") (by simp [Ws]) (by simp [Ws]) (.obj _ _
    (.more' _ _ _ _ _ (der_mem (txt! "\n    ") (by simp [Ws]) (by decide) (der_elem [] (by simp [Ws]) (der_str h1)))
    (.more' _ _ _ _ _ (der_mem (txt! "\n    ") (by simp [Ws]) (by decide) (der_elem [] (by simp [Ws]) (der_str h2)))
    (.more' _ _ _ _ _ (der_mem (txt! "\n    ") (by simp [Ws]) (by decide) (der_elem [] (by simp [Ws]) (der_str ha)))
    (.more' _ _ _ _ _ (der_mem (txt! "\n    ") (by simp [Ws]) (by decide)
      (der_elem [] (by simp [Ws]) (der_str (by decide))))
    (.more' _ _ _ _ _ (der_mem (txt! "\n    ") (by simp [Ws]) (by decide) (der_elem [] (by simp [Ws]) (der_str h3)))
    (.more' _ _ _ _ _ (der_mem (txt! "\n    ") (by simp [Ws]) (by decide) (der_elem [] (by simp [Ws]) (der_str h4)))
    (.more' _ _ _ _ _ (der_mem (txt! "\n    ") (by simp [Ws]) (by decide) (der_elem [] (by simp [Ws]) (der_nat _)))
    (.more' _ _ _ _ _ (der_mem (txt! "\n    ") (by simp [Ws]) (by decide) (der_elem [] (by simp [Ws]) (der_nat _)))
    (.more' _ _ _ _ _ (der_mem (txt! "\n    ") (by simp [Ws]) (by decide) (der_elem [] (by simp [Ws]) (der_nat _)))
    (.one' _ _ _ (der_mem (txt! "\n    ") (by simp [Ws]) (by decide)
      (der_elem (txt! "\n") (by simp [Ws]) (results_der s.verify rs h5))))))))))))))) ?_
  simp [experiment, start, finish]

/-! ### The properties -/

/-- C115: if no string has to be escaped then the output is a JSON text, whatever the number of runs and their results,
and it denotes the report and nothing else. Missing: strings with quotation marks, backslashes or control characters,
for which the output is wrong (`C115_violated`). -/
theorem C115_json_partial (s : Setup) (rs : List Run) (ha : Plain s.args) (h : PlainRest s rs) (j : J) :
    Text j (experiment s rs) ↔ j = report s (cumulative s.verify [] rs) :=
  ⟨fun hj => text_unique hj (experiment_der s rs ha h), fun hj => hj ▸ experiment_der s rs ha h⟩

/-- Setup of the examples. -/
def setup0 (args : List Char) : Setup :=
  ⟨txt! "a1b2", txt! "2026-01-01T00:00:00+0000", args, true, txt! "k-way cycle", txt! "uniform", 1000, 4, 1986⟩

/-- A run of the examples. -/
def run0 : Run :=
  ⟨[.base 31 (txt! "s"), .partitionEnd 5, .partition [500, 500] (some 31), .base 508 (txt! "00"), .base 508 (txt! "01"),
    .base 90 (txt! "0e"), .triangulationEnd 120], 2010, true⟩

theorem plain0 (args : List Char) (n : Nat) : PlainRest (setup0 args) (List.replicate n run0) := by
  refine ⟨show Plain (txt! "a1b2") by decide, show Plain (txt! "2026-01-01T00:00:00+0000") by decide,
    show Plain (txt! "k-way cycle") by decide, show Plain (txt! "uniform") by decide, ?_⟩
  intro r hr
  rw [List.eq_of_mem_replicate hr]
  decide

example : Text (report (setup0 (txt! "--n 1000")) (cumulative true [] [run0, run0]))
    (experiment (setup0 (txt! "--n 1000")) [run0, run0]) :=
  (C115_json_partial _ _ (by decide) (plain0 _ 2) _).2 rfl

/-- The arguments as one string. -/
theorem C115_args (a : List Char) (l : List (List Char)) : argString (a :: l) = some ([' '].intercalate (a :: l)) := by
  suffices h : ∀ (l : List (List Char)) (a : List Char), l.foldl (fun acc e => acc ++ (' ' :: e)) a =
      [' '].intercalate (a :: l) from congrArg some (h l a)
  intro l
  induction l with
  | nil => intro a; simp [List.intercalate]
  | cons b l ih =>
    intro a
    rw [List.foldl_cons, ih]
    cases l <;> simp [List.intercalate, List.intersperse]

example : argString [txt! "--n", txt! "1000"] = some (txt! "--n 1000") := by
  rw [C115_args]; rfl

theorem count_nat (n : Nat) : (nat n).count '"' = 0 := count_num (nat_num n)

theorem count_int (n : Int) : (int n).count '"' = 0 := count_num (int_num n)

theorem plain_count {l : List Char} (h : Plain l) : l.count '"' = 0 :=
  List.count_eq_zero.2 fun hc => (h _ hc).2.1 rfl

/-- The report with other arguments. -/
def withArgs (s : Setup) (a : List Char) : Setup := { s with args := a }

set_option maxRecDepth 8000 in
theorem count_args (s : Setup) (rs : List Run) :
    (experiment s rs).count '"' = s.args.count '"' + (experiment (withArgs s []) rs).count '"' := by
  simp only [experiment, start, withArgs, List.count_append, List.count_nil]
  omega

set_option maxRecDepth 8000 in
theorem mem_args (s : Setup) (rs : List Run) (h : '\\' ∈ experiment s rs) :
    '\\' ∈ s.args ∨ '\\' ∈ experiment (withArgs s []) rs := by
  simp only [experiment, start, withArgs, List.mem_append, List.not_mem_nil] at h ⊢
  tauto

theorem not_mem_of_digit {l : List Char} (h : ∀ c ∈ l, IsDigit c) : '\\' ∉ l := fun hc => by
  have := (h _ hc).2
  simp at this

theorem nat_nobs (n : Nat) : '\\' ∉ nat n := not_mem_of_digit (nat_spec n).1

theorem int_nobs (z : Int) : '\\' ∉ int z := by
  cases z with
  | ofNat n => exact nat_nobs n
  | negSucc n => simpa [int] using nat_nobs (n + 1)

theorem plain_nobs {l : List Char} (h : Plain l) : '\\' ∉ l := fun hc => (h _ hc).2.2 rfl

theorem sizesLoop_nobs (l : List Nat) : ∀ b, '\\' ∉ sizesLoop b l := by
  induction l with
  | nil => simp [sizesLoop]
  | cons n l ih => intro b; cases b <;> simp [sizesLoop, ih, nat_nobs]

theorem baseLoop_nobs (l : List (Nat × List Char)) (h : ∀ b ∈ l, Plain b.2) : ∀ b, '\\' ∉ baseLoop b l := by
  induction l with
  | nil => simp [baseLoop]
  | cons a l ih =>
    obtain ⟨n, p⟩ := a
    have h1 := plain_nobs (h (n, p) (by simp))
    have h2 := ih fun b hb => h b (by simp [hb])
    intro b; cases b <;> simp [baseLoop, h2, nat_nobs, h1]

set_option maxRecDepth 8000 in
theorem run_nobs (verify first : Bool) (a : Acc) (r : Run) (h : ∀ b ∈ a.base, Plain b.2) :
    '\\' ∉ run verify first a r := by
  have h1 := baseLoop_nobs a.base h true
  cases verify <;> cases first <;> cases hv : r.valid <;>
    simp [run, sizesLoop_nobs, nat_nobs, int_nobs, h1, hv]

theorem runs_nobs (verify : Bool) : ∀ (l : List Run) (first : Bool) (es : List Event), (∀ b ∈ basesOf es, Plain b.2) →
    (∀ r ∈ l, ∀ b ∈ basesOf r.events, Plain b.2) → '\\' ∉ runs verify first (es.foldl Acc.event .new) l
  | [], _, _, _, _ => by simp [runs]
  | r :: l, first, es, he, h => by
    have he' : ∀ b ∈ basesOf (es ++ r.events), Plain b.2 := by
      intro b hb
      rw [basesOf, List.filterMap_append] at hb
      rcases List.mem_append.1 hb with hb | hb
      · exact he b hb
      · exact h r (by simp) b hb
    rw [runs, ← List.foldl_append, List.mem_append, not_or]
    refine ⟨run_nobs _ _ _ _ ?_, runs_nobs verify l false _ he' fun r' hr' => h r' (by simp [hr'])⟩
    rw [acc_event]
    exact he'

set_option maxRecDepth 8000 in
theorem experiment_nobs (s : Setup) (rs : List Run) (ha : '\\' ∉ s.args) (h : PlainRest s rs) :
    '\\' ∉ experiment s rs := by
  obtain ⟨h1, h2, h3, h4, h5⟩ := h
  have h6 := runs_nobs s.verify rs true [] (by simp [basesOf]) h5
  simp [experiment, start, finish, plain_nobs h1, plain_nobs h2, plain_nobs h3, plain_nobs h4, nat_nobs, ha]
  exact h6

/-- C115 is violated: an argument with a quotation mark is written as it is, and the output is no JSON text.
Consequence: the results of a run with such a file name cannot be read. -/
theorem C115_violated (s : Setup) (rs : List Run) (h : PlainRest s rs) (hb : '\\' ∉ s.args)
    (hq : Odd (s.args.count '"')) (j : J) : ¬ Text j (experiment s rs) := by
  intro hj
  have h1 := der_even hj (experiment_nobs s rs hb h)
  rw [count_args] at h1
  have h2 : Even ((experiment (withArgs s []) rs).count '"') :=
    der_even (experiment_der (withArgs s []) rs (by simp [Plain, withArgs]) h)
      (experiment_nobs (withArgs s []) rs (by simp [withArgs]) h)
  exact (Nat.not_even_iff_odd.2 (hq.add_even h2)) h1

example (j : J) : ¬ Text j (experiment (setup0 (txt! "--points 5\".txt")) [run0]) :=
  C115_violated _ _ (plain0 _ 1) (by decide) (by decide) j

/-- C116: with one run the result describes this run. Missing: further runs (`C116_violated`). -/
theorem C116_first_partial (s : Setup) (r : Run) (ha : Plain s.args) (h : PlainRest s [r]) :
    Text (report s (separate s.verify [r])) (experiment s [r]) :=
  experiment_der s [r] ha h

example : Text (report (setup0 (txt! "--n 1000")) (separate true [run0])) (experiment (setup0 (txt! "--n 1000")) [run0]) :=
  C116_first_partial _ _ (by decide) (plain0 _ 1)

theorem result_sizes {verify : Bool} {es es' : List Event} {n n' : Nat} {v v' : Bool}
    (h : result verify es n v = result verify es' n' v') : sizesOf es = sizesOf es' := by
  have hi : Function.Injective (fun n : Nat => J.obj [(txt! "size", jn n)]) := by
    intro a b hab
    simp only [J.obj.injEq, List.cons.injEq, Prod.mk.injEq, true_and, and_true, jn, J.num.injEq] at hab
    exact_mod_cast hab
  have h' : (sizesOf es).map (fun n : Nat => J.obj [(txt! "size", jn n)]) =
      (sizesOf es').map (fun n : Nat => J.obj [(txt! "size", jn n)]) := by
    cases verify <;> simp [result] at h
    · exact h.2.2.2.2.2.1
    · exact h.2.2.2.2.2.2.1
  exact List.map_injective_iff.2 hi h'

/-- C116 is violated: the accumulator is not reset, so that the result of the second run contains the parts of the first
one as well. Consequence: only the first result of an experiment can be used. -/
theorem C116_violated (s : Setup) (r r' : Run) (ha : Plain s.args) (h : PlainRest s [r, r'])
    (hs : sizesOf r.events ≠ []) : ¬ Text (report s (separate s.verify [r, r'])) (experiment s [r, r']) := by
  intro ht
  have h1 := text_unique ht (experiment_der s [r, r'] ha h)
  simp only [report, separate, cumulative, J.obj.injEq, List.cons.injEq, Prod.mk.injEq, true_and, and_true,
    J.arr.injEq, List.map_cons, List.map_nil] at h1
  have h2 := result_sizes h1.2
  simp only [List.nil_append, sizesOf, List.flatMap_append] at h2
  have h3 := congrArg List.length h2
  rw [List.length_append] at h3
  exact hs (List.eq_nil_of_length_eq_zero (by unfold sizesOf; omega))

example : ¬ Text (report (setup0 (txt! "--n 1000")) (separate true [run0, run0]))
    (experiment (setup0 (txt! "--n 1000")) [run0, run0]) :=
  C116_violated _ _ _ (by decide) (plain0 _ 2) (by decide)

end Report
end Verif

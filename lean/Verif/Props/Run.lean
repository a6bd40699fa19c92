import Mathlib.Tactic.Set
import Mathlib.Tactic.Tauto
import Verif.Model.Run

/-!
# C98: descriptions of experiments are read back as they were written
-/
namespace Verif
namespace Run

/-- A name without the characters of the separators. -/
def CleanName (n : Str) : Prop := ':' ∉ n ∧ ' ' ∉ n

/-- A value that is not empty, does not begin or end with a space and does not contain three spaces in a row. -/
def CleanValue (v : Str) : Prop := v ≠ [] ∧ v.head? ≠ some ' ' ∧ v.getLast? ≠ some ' ' ∧ ¬ [' ', ' ', ' '] <:+: v

theorem findFrom_none {sub : Str} : ∀ {s : Str} {pos : Nat}, (∀ j, ¬ sub <+: s.drop j) → findFrom sub s pos = npos
  | [], pos, h => by
    have := h 0
    unfold findFrom
    rw [if_neg]
    simpa [List.isPrefixOf_iff_prefix] using this
  | c :: s, pos, h => by
    unfold findFrom
    rw [if_neg, findFrom_none (fun j => by simpa using h (j + 1))]
    simpa [List.isPrefixOf_iff_prefix] using h 0

theorem findFrom_first {sub : Str} : ∀ {a b : Str} {pos : Nat}, sub <+: b → (∀ j < a.length, ¬ sub <+: (a ++ b).drop j) →
    findFrom sub (a ++ b) pos = pos + a.length
  | [], b, pos, h, _ => by
    cases b with
    | nil => simp only [List.append_nil, findFrom]; rw [if_pos (List.isPrefixOf_iff_prefix.2 h)]; rfl
    | cons c b =>
      simp only [List.nil_append, findFrom]
      rw [if_pos (List.isPrefixOf_iff_prefix.2 h)]; rfl
  | c :: a, b, pos, h, hj => by
    simp only [List.cons_append, findFrom]
    rw [if_neg, findFrom_first h (fun j hl => by simpa using hj (j + 1) (by simpa using hl))]
    · simp only [List.length_cons]; omega
    · rw [List.isPrefixOf_iff_prefix]
      simpa using hj 0 (by simp)

/-- The inner separator is found behind the name. -/
theorem inner_first {n r : Str} (h : ':' ∉ n) : ∀ j < n.length, ¬ innerSep <+: (n ++ r).drop j := by
  intro j hj hp
  obtain ⟨t, ht⟩ := hp
  have h1 : ((n ++ r).drop j).head? = some ':' := by rw [← ht]; rfl
  rw [List.head?_drop, List.getElem?_append_left hj] at h1
  exact h (List.mem_of_getElem? h1)

theorem three {s : Str} (h : traitSep <+: s) : s[0]? = some ' ' ∧ s[1]? = some ' ' ∧ s[2]? = some ' ' := by
  obtain ⟨t, rfl⟩ := h
  exact ⟨rfl, rfl, rfl⟩

/-- The separator of the traits does not occur before the end of the value. -/
theorem trait_first {n v r : Str} (hn : ' ' ∉ n) (hv : CleanValue v) :
    ∀ j < (n ++ innerSep ++ v).length, ¬ traitSep <+: (n ++ innerSep ++ v ++ r).drop j := by
  intro j hj hp
  obtain ⟨h0, h1, h2⟩ := three hp
  simp only [List.getElem?_drop] at h0 h1 h2
  have hlen : (n ++ innerSep).length = n.length + 2 := by simp [innerSep]
  obtain ⟨v1, v2, v3, v4⟩ := hv
  have hvl : 0 < v.length := List.length_pos_iff.2 v1
  have at_v : ∀ i, n.length + 2 ≤ i → i < n.length + 2 + v.length → (n ++ innerSep ++ v ++ r)[i]? = v[i - (n.length + 2)]? := by
    intro i hi1 hi2
    rw [List.getElem?_append_left (by rw [List.length_append, hlen]; exact hi2), List.getElem?_append_right (by omega), hlen]
  rw [List.length_append, hlen] at hj
  rcases Nat.lt_or_ge j n.length with hjn | hjn
  · rw [List.append_assoc, List.append_assoc, Nat.add_zero, List.getElem?_append_left hjn] at h0
    exact hn (List.mem_of_getElem? h0)
  rcases Nat.eq_or_lt_of_le hjn with hjn | hjn
  · subst hjn
    rw [List.append_assoc, List.append_assoc, Nat.add_zero, List.getElem?_append_right (Nat.le_refl _), Nat.sub_self] at h0
    simp [innerSep] at h0
  rcases Nat.eq_or_lt_of_le hjn with hjn | hjn
  · rw [at_v _ (by omega) (by omega), show j + 1 - (n.length + 2) = 0 by omega] at h1
    rw [List.head?_eq_getElem?] at v2
    exact v2 h1
  · rcases Nat.lt_or_ge (j + 2) (n.length + 2 + v.length) with hl | hl
    · rw [at_v _ (by omega) (by omega)] at h0 h1 h2
      obtain ⟨i, hi⟩ : ∃ i, j = i + (n.length + 2) := ⟨j - (n.length + 2), by omega⟩
      subst hi
      rw [show i + (n.length + 2) + 0 - (n.length + 2) = i by omega] at h0
      rw [show i + (n.length + 2) + 1 - (n.length + 2) = i + 1 by omega] at h1
      rw [show i + (n.length + 2) + 2 - (n.length + 2) = i + 2 by omega] at h2
      apply v4
      refine ⟨v.take i, v.drop (i + 3), ?_⟩
      have e : v.drop i = ' ' :: ' ' :: ' ' :: v.drop (i + 3) := by
        rw [List.drop_eq_getElem_cons (show i < v.length by omega), List.drop_eq_getElem_cons (show i + 1 < v.length by omega),
          List.drop_eq_getElem_cons (show i + 1 + 1 < v.length by omega)]
        rw [List.getElem?_eq_getElem (by omega)] at h0 h1 h2
        simp only [Option.some.injEq] at h0 h1 h2
        rw [h0, h1, h2]
      calc v.take i ++ [' ', ' ', ' '] ++ v.drop (i + 3) = v.take i ++ v.drop i := by rw [e]; simp
        _ = v := List.take_append_drop i v
    · -- the last character of the value is a space
      have key : (n ++ innerSep ++ v ++ r)[n.length + 2 + v.length - 1]? = some ' ' := by
        rcases Nat.eq_or_lt_of_le hl with hl | hl
        · rw [show n.length + 2 + v.length - 1 = j + 1 by omega]; exact h1
        · rw [show n.length + 2 + v.length - 1 = j + 0 by omega]; exact h0
      rw [at_v _ (by omega) (by omega)] at key
      rw [List.getLast?_eq_getElem?] at v3
      rw [show n.length + 2 + v.length - 1 - (n.length + 2) = v.length - 1 by omega] at key
      exact v3 key

/-- What the loop does with a trait. -/
def keep (m : Traits) (t : Str × Str) : Traits := if t.1 ∈ ignored then m else addTrait t.1 t.2 m

theorem strLoop_sep (tsep isep : Str) (t : Str × Str) (ts : Traits) (sep : Str) :
    strLoop tsep isep (t :: ts) sep = sep ++ strLoop tsep isep (t :: ts) [] := by
  simp [strLoop]

theorem parseLoop_str : ∀ (ts : Traits) (pre : Str) (m : Traits) (fuel : Nat), ts.length < fuel →
    (∀ t ∈ ts, CleanName t.1 ∧ CleanValue t.2) → (pre ++ strLoop traitSep innerSep ts []).length < 2 ^ 63 →
    parseLoop (pre ++ strLoop traitSep innerSep ts []) traitSep innerSep fuel pre.length m = .done (ts.foldl keep m)
  | [], pre, m, fuel, hf, _, _ => by
    obtain ⟨fuel, rfl⟩ : ∃ f, fuel = f + 1 := ⟨fuel - 1, by simp at hf; omega⟩
    simp [parseLoop, strLoop]
  | t :: ts, pre, m, fuel, hf, hc, hl => by
    obtain ⟨fuel, rfl⟩ : ∃ f, fuel = f + 1 := ⟨fuel - 1, by simp at hf; omega⟩
    obtain ⟨hn, hv⟩ := hc t (by simp)
    have his : innerSep.length = 2 := rfl
    have hts : traitSep.length = 3 := rfl
    set n := t.1 with hnd
    set v := t.2 with hvd
    set rest := strLoop traitSep innerSep ts traitSep with hrest
    have hstr : strLoop traitSep innerSep (t :: ts) [] = n ++ innerSep ++ v ++ rest := by simp [strLoop, hrest, hnd, hvd]
    rw [hstr] at hl ⊢
    set run := pre ++ (n ++ innerSep ++ v ++ rest) with hrun
    have hrl : run.length = pre.length + (n.length + 2 + v.length) + rest.length := by
      rw [hrun]; simp only [List.length_append, his]; omega
    have hdrop : run.drop pre.length = n ++ innerSep ++ v ++ rest := by rw [hrun]; simp
    have hinner : find run innerSep pre.length = pre.length + n.length := by
      unfold find
      rw [hdrop, List.append_assoc, List.append_assoc]
      exact findFrom_first ⟨v ++ rest, rfl⟩ (inner_first hn.1)
    have hname : substr run pre.length (sub64 (pre.length + n.length) pre.length) = .done n := by
      unfold substr
      rw [if_neg (by omega), hdrop]
      have : sub64 (pre.length + n.length) pre.length = n.length := by unfold sub64; omega
      rw [this, List.append_assoc, List.append_assoc, List.take_left']
      rfl
    have hpos : add64 (pre.length + n.length) innerSep.length = pre.length + n.length + 2 := by unfold add64; rw [his]; omega
    have hvalue : ∀ tr, v.length ≤ sub64 tr (pre.length + n.length + 2) →
        (rest = [] ∨ sub64 tr (pre.length + n.length + 2) = v.length) →
        substr run (pre.length + n.length + 2) (sub64 tr (pre.length + n.length + 2)) = .done v := by
      intro tr h1 h2
      unfold substr
      rw [if_neg (by omega)]
      have hd : run.drop (pre.length + n.length + 2) = v ++ rest := by
        have : run.drop (pre.length + n.length + 2) = (run.drop pre.length).drop (n ++ innerSep).length := by
          rw [List.drop_drop]; simp [his, Nat.add_assoc]
        rw [this, hdrop]
        simp
      rw [hd]
      rcases h2 with h2 | h2
      · rw [h2, List.append_nil, List.take_of_length_le h1]
      · rw [h2, List.take_left']
        rfl
    have hcur : pre.length < run.length := by omega
    cases ts with
    | nil =>
      have hre : rest = [] := by rw [hrest]; rfl
      have htr : find run traitSep pre.length = npos := by
        unfold find
        rw [hdrop]
        refine findFrom_none fun j => ?_
        rcases Nat.lt_or_ge j (n ++ innerSep ++ v).length with h | h
        · exact trait_first hn.2 hv j h
        · rw [hre, List.append_nil, List.drop_of_length_le h]
          rintro ⟨x, hx⟩
          cases hx
      unfold parseLoop
      have hs : sub64 (run.length + 1) (pre.length + n.length + 2) = v.length + 1 := by
        unfold sub64; rw [hrl, hre]; simp only [List.length_nil]; omega
      simp only [hcur, if_true, hinner, hname, Res.bind_done, htr, ne_eq, not_true, if_false, hpos]
      rw [hvalue (run.length + 1) (by rw [hs]; omega) (Or.inl hre)]
      simp only [Res.bind_done]
      cases fuel with
      | zero => simp at hf
      | succ fuel =>
        unfold parseLoop
        rw [if_neg]
        · simp only [List.foldl_cons, List.foldl_nil, keep]; rfl
        · unfold add64; rw [hts]; omega
    | cons t2 ts =>
      have hre : rest = traitSep ++ strLoop traitSep innerSep (t2 :: ts) [] := by rw [hrest]; exact strLoop_sep _ _ _ _ _
      have htr : find run traitSep pre.length = pre.length + (n.length + 2 + v.length) := by
        unfold find
        rw [hdrop, findFrom_first ⟨_, hre.symm⟩ (trait_first hn.2 hv)]
        simp only [List.length_append, his]
      have hrl2 : 3 ≤ rest.length := by rw [hre, List.length_append, hts]; omega
      unfold parseLoop
      have hne : pre.length + (n.length + 2 + v.length) ≠ npos := by unfold npos; omega
      have hs : sub64 (pre.length + (n.length + 2 + v.length)) (pre.length + n.length + 2) = v.length := by unfold sub64; omega
      simp only [hcur, if_true, hinner, hname, Res.bind_done, htr, ne_eq, hne, not_false_eq_true, hpos]
      rw [hvalue _ (Nat.le_of_eq hs.symm) (Or.inr hs)]
      simp only [Res.bind_done]
      have ha : add64 (pre.length + (n.length + 2 + v.length)) traitSep.length = (pre ++ (n ++ innerSep ++ v ++ traitSep)).length := by
        unfold add64; simp only [List.length_append, hts, his]; omega
      have hrun2 : run = pre ++ (n ++ innerSep ++ v ++ traitSep) ++ strLoop traitSep innerSep (t2 :: ts) [] := by
        rw [hrun, hre]; simp only [List.append_assoc]
      rw [ha, hrun2]
      rw [hrun2] at hl
      rw [parseLoop_str (t2 :: ts) _ _ fuel (by simp at hf ⊢; omega) (fun u hu => hc u (by simp at hu ⊢; tauto)) hl]
      simp only [List.foldl_cons, keep]; rfl

theorem mem_addTrait {name value : Str} : ∀ {m : Traits}, (∀ t ∈ m, t.1 ≠ name) → ∀ u, u ∈ addTrait name value m ↔ u = (name, value) ∨ u ∈ m
  | [], _, u => by simp [addTrait]
  | t :: ts, h, u => by
    have h1 : name ≠ t.1 := fun hx => h t (by simp) hx.symm
    unfold addTrait
    rw [if_neg h1]
    split
    · simp
    · simp only [List.mem_cons, mem_addTrait (m := ts) (fun w hw => h w (by simp [hw])) u]
      tauto

theorem length_addTrait {name value : Str} : ∀ {m : Traits}, (∀ t ∈ m, t.1 ≠ name) → (addTrait name value m).length = m.length + 1
  | [], _ => rfl
  | t :: ts, h => by
    have h1 : name ≠ t.1 := fun hx => h t (by simp) hx.symm
    unfold addTrait
    rw [if_neg h1]
    split
    · simp
    · simp [length_addTrait (m := ts) (fun w hw => h w (by simp [hw]))]

theorem mem_foldl_keep : ∀ {ts m : Traits}, (ts.map Prod.fst).Nodup → (∀ t ∈ ts, ∀ w ∈ m, t.1 ∉ ignored → w.1 ≠ t.1) →
    (∀ u, u ∈ ts.foldl keep m ↔ (u ∈ ts ∧ u.1 ∉ ignored) ∨ u ∈ m) ∧
    (ts.foldl keep m).length = (ts.filter (fun t => t.1 ∉ ignored)).length + m.length
  | [], m, _, _ => by simp
  | t :: ts, m, hnd, h => by
    simp only [List.map_cons, List.nodup_cons] at hnd
    obtain ⟨ht, hnd⟩ := hnd
    have ht' : ∀ w ∈ ts, w.1 ≠ t.1 := fun w hw hx => ht (hx ▸ List.mem_map_of_mem hw)
    by_cases hi : t.1 ∈ ignored
    · obtain ⟨h1, h2⟩ := mem_foldl_keep (ts := ts) (m := m) hnd (fun u hu => h u (by simp [hu]))
      simp only [List.foldl_cons, keep, hi, if_true]
      refine ⟨fun u => ?_, ?_⟩
      · rw [h1 u]
        simp only [List.mem_cons]
        constructor
        · rintro (⟨h3, h4⟩ | h3)
          · exact Or.inl ⟨Or.inr h3, h4⟩
          · exact Or.inr h3
        · rintro (⟨rfl | h3, h4⟩ | h3)
          · exact absurd hi h4
          · exact Or.inl ⟨h3, h4⟩
          · exact Or.inr h3
      · rw [h2, List.filter_cons_of_neg (by simpa using hi)]
    · have hfresh : ∀ w ∈ m, w.1 ≠ t.1 := fun w hw => h t (by simp) w hw hi
      have hm := mem_addTrait (value := t.2) hfresh
      obtain ⟨h1, h2⟩ := mem_foldl_keep (ts := ts) (m := addTrait t.1 t.2 m) hnd (fun u hu w hw hui => by
        rcases (hm w).1 hw with rfl | hw
        · exact (ht' u hu).symm
        · exact h u (by simp [hu]) w hw hui)
      simp only [List.foldl_cons, keep, hi, if_false]
      refine ⟨fun u => ?_, ?_⟩
      · rw [h1 u, hm u]
        simp only [List.mem_cons]
        constructor
        · rintro (⟨h3, h4⟩ | h3 | h3)
          · exact Or.inl ⟨Or.inr h3, h4⟩
          · exact Or.inl ⟨Or.inl h3, by rw [h3]; exact hi⟩
          · exact Or.inr h3
        · rintro (⟨h3 | h3, h4⟩ | h3)
          · exact Or.inr (Or.inl h3)
          · exact Or.inl ⟨h3, h4⟩
          · exact Or.inr (Or.inr h3)
      · rw [h2, length_addTrait hfresh, List.filter_cons_of_pos (by simpa using hi)]
        simp only [List.length_cons]; omega

theorem mem_new (host rev : Str) (u : Str × Str) : u ∈ new host rev ↔ u = ("host".toList, host) ∨ u = ("git-rev".toList, rev) := by
  have : new host rev = [("git-rev".toList, rev), ("host".toList, host)] := rfl
  rw [this]
  simp only [List.mem_cons, List.not_mem_nil, or_false]
  tauto

theorem parse_str {m : Traits} (hm : (m.map Prod.fst).Nodup) (hc : ∀ t ∈ m, CleanName t.1 ∧ CleanValue t.2)
    (hl : (str m traitSep innerSep).length < 2 ^ 63) (host rev : Str) :
    Returns (parse host rev (str m traitSep innerSep) traitSep innerSep) (m.foldl keep (new host rev)) :=
  ⟨m.length + 1, fun k hk => parseLoop_str m [] (new host rev) k hk hc (by simpa [str] using hl)⟩

theorem new_ignored {host rev : Str} : ∀ w ∈ new host rev, w.1 ∈ ignored := by
  intro w hw
  rcases (mem_new host rev w).1 hw with rfl | rfl
  · simp only [ignored, List.mem_cons, true_or, or_true]
  · simp only [ignored, List.mem_cons, true_or, or_true]

/-- **C98 (partial).** The description of an experiment that `str` prints is read back by the constructor: the traits are those of the
original, except for the ones that are ignored on purpose, and the host name and the revision of the machine that reads it.
Missing: names must not contain a colon or a space; values must not be empty, begin or end with a space, or contain three spaces in a
row. Without these conditions the claim is false, see below. -/
theorem C98_roundtrip_partial {m : Traits} (hm : (m.map Prod.fst).Nodup) (hc : ∀ t ∈ m, CleanName t.1 ∧ CleanValue t.2)
    (hl : (str m traitSep innerSep).length < 2 ^ 63) (host rev : Str) :
    ∃ r, Returns (parse host rev (str m traitSep innerSep) traitSep innerSep) r ∧
      ∀ name value, (name, value) ∈ r ↔ (name, value) ∈ m ∧ name ∉ ignored ∨ name = "host".toList ∧ value = host ∨
        name = "git-rev".toList ∧ value = rev := by
  refine ⟨_, parse_str hm hc hl host rev, fun name value => ?_⟩
  rw [(mem_foldl_keep hm (fun t _ w hw hti hx => hti (hx ▸ new_ignored w hw))).1, mem_new]
  simp

theorem filter_split : ∀ (m : Traits),
    m.length = (m.filter (fun t => t.1 ∉ ignored)).length + (m.filter (fun t => t.1 ∈ ignored)).length
  | [] => rfl
  | t :: ts => by
    have ih := filter_split ts
    by_cases h : t.1 ∈ ignored
    · rw [List.filter_cons_of_neg (by simpa using h), List.filter_cons_of_pos (by simpa using h)]
      simp only [List.length_cons]; omega
    · rw [List.filter_cons_of_pos (by simpa using h), List.filter_cons_of_neg (by simpa using h)]
      simp only [List.length_cons]; omega

theorem find_mem {o : Traits} (hnd : (o.map Prod.fst).Nodup) {n v : Str} (h : (n, v) ∈ o) : o.find? (fun u => u.1 == n) = some (n, v) := by
  induction o with
  | nil => cases h
  | cons t ts ih =>
    simp only [List.map_cons, List.nodup_cons] at hnd
    rcases List.mem_cons.1 h with rfl | h'
    · simp
    · have : t.1 ≠ n := fun hx => hnd.1 (hx ▸ List.mem_map_of_mem (f := Prod.fst) h')
      rw [List.find?_cons_of_neg (by simpa using this)]
      exact ih hnd.2 h'

theorem eqLoop_true {o : Traits} : ∀ {m : Traits} {e : Bool}, (∀ t ∈ m, t.1 ∉ ignored → o.find? (fun u => u.1 == t.1) = some t) → eqLoop o m e = e
  | [], e, _ => rfl
  | t :: ts, e, h => by
    unfold eqLoop
    split
    · exact eqLoop_true (fun u hu => h u (by simp [hu]))
    · rename_i hi
      rw [h t (by simp) hi]
      simp only [ne_eq, not_true, if_false]
      exact eqLoop_true (fun u hu => h u (by simp [hu]))

theorem nodup_addTrait {name value : Str} {m : Traits} (h : (m.map Prod.fst).Nodup) (hf : ∀ t ∈ m, t.1 ≠ name) :
    ((addTrait name value m).map Prod.fst).Nodup := by
  induction m with
  | nil => simp [addTrait]
  | cons t ts ih =>
    have h1 : name ≠ t.1 := fun hx => hf t (by simp) hx.symm
    simp only [List.map_cons, List.nodup_cons] at h
    unfold addTrait
    rw [if_neg h1]
    split
    · simp only [List.map_cons, List.nodup_cons, List.mem_cons, not_or]
      refine ⟨⟨h1, ?_⟩, h⟩
      intro hx
      obtain ⟨w, hw, hwn⟩ := List.mem_map.1 hx
      exact hf w (by simp [hw]) hwn
    · simp only [List.map_cons, List.nodup_cons]
      refine ⟨?_, ih h.2 (fun w hw => hf w (by simp [hw]))⟩
      intro hx
      obtain ⟨w, hw, hwn⟩ := List.mem_map.1 hx
      rcases (mem_addTrait (fun w hw => hf w (by simp [hw])) w).1 hw with rfl | hw
      · exact h1 hwn
      · exact h.1 (hwn ▸ List.mem_map_of_mem hw)

theorem nodup_keep : ∀ {ts m : Traits}, (ts.map Prod.fst).Nodup → (m.map Prod.fst).Nodup → (∀ t ∈ ts, ∀ w ∈ m, t.1 ∉ ignored → w.1 ≠ t.1) →
    ((ts.foldl keep m).map Prod.fst).Nodup
  | [], m, _, h, _ => h
  | t :: ts, m, hnd, hm, h => by
    simp only [List.map_cons, List.nodup_cons] at hnd
    simp only [List.foldl_cons, keep]
    split
    · exact nodup_keep hnd.2 hm (fun u hu => h u (by simp [hu]))
    · rename_i hi
      have hfresh : ∀ w ∈ m, w.1 ≠ t.1 := fun w hw => h t (by simp) w hw hi
      refine nodup_keep hnd.2 (nodup_addTrait hm hfresh) (fun u hu w hw hui => ?_)
      rcases (mem_addTrait hfresh w).1 hw with rfl | hw
      · exact fun hx => hnd.1 (hx ▸ List.mem_map_of_mem hu)
      · exact h u (by simp [hu]) w hw hui

theorem eqLoop_iff {o : Traits} (ho : (o.map Prod.fst).Nodup) : ∀ {m : Traits} {e : Bool},
    eqLoop o m e = true ↔ e = true ∧ ∀ t ∈ m, t.1 ∉ ignored → t ∈ o
  | [], e => by simp [eqLoop]
  | t :: ts, e => by
    unfold eqLoop
    split
    · rename_i hi
      rw [eqLoop_iff ho]
      simp only [List.mem_cons, forall_eq_or_imp, hi, not_true, false_imp_iff, true_and]
    · rename_i hi
      split
      · rename_i hn
        simp only [Bool.false_eq_true, false_iff, not_and]
        intro _ h
        have := h t (by simp) hi
        rw [List.find?_eq_none] at hn
        exact hn t this (by simp)
      · rename_i u hu
        rw [eqLoop_iff ho]
        have h1 : u.1 = t.1 := by simpa using List.find?_some hu
        have h2 : u ∈ o := List.mem_of_find?_eq_some hu
        have h3 : t ∈ o ↔ t.2 = u.2 := by
          constructor
          · intro h
            have := find_mem ho (n := t.1) (v := t.2) h
            rw [hu] at this
            injection this with this
            rw [this]
          · intro h
            have : t = u := Prod.ext h1.symm h
            rw [this]
            exact h2
        simp only [List.mem_cons, forall_eq_or_imp, hi, not_false_iff, true_imp_iff, h3]
        by_cases h : t.2 = u.2
        · simp [h]
        · simp [h]

/-- **C98.** What `operator==` decides: both runs have the same number of traits, and the other one has every trait of this one that is
not one of the five ignored ones, with the same value. -/
theorem C98_equality (m o : Traits) (ho : (o.map Prod.fst).Nodup) :
    eqOp m o = true ↔ m.length = o.length ∧ ∀ name value, (name, value) ∈ m → name ∉ ["git-rev".toList, "host".toList,
      "run-number".toList, "start-time".toList, "end-time".toList] → (name, value) ∈ o := by
  have hi : ∀ n : Str, n ∉ ["git-rev".toList, "host".toList, "run-number".toList, "start-time".toList, "end-time".toList] ↔ n ∉ ignored := by
    have perm : ∀ (a b c d e n : Str), n ∉ [a, e, d, b, c] ↔ n ∉ [a, b, c, d, e] := by
      intro a b c d e n
      simp only [List.mem_cons, List.not_mem_nil, or_false]
      tauto
    exact fun n => perm _ _ _ _ _ n
  simp only [hi]
  unfold eqOp
  split
  · rename_i h
    simp [h]
  · rename_i h
    simp only [ne_eq, not_not] at h
    rw [eqLoop_iff ho]
    simp [h]

/-- **C98 (partial).** A run that has been created, but not started, equals the run that is read from its description, in the sense of
`operator==`. -/
theorem C98_equal_partial {m : Traits} (hm : (m.map Prod.fst).Nodup) (hc : ∀ t ∈ m, CleanName t.1 ∧ CleanValue t.2)
    (hl : (str m traitSep innerSep).length < 2 ^ 63) (host rev : Str)
    (hi : (m.filter (fun t => t.1 ∈ ignored)).length = 2) :
    ∃ r, Returns (parse host rev (str m traitSep innerSep) traitSep innerSep) r ∧ eqOp m r = true := by
  have hfr : ∀ t ∈ m, ∀ w ∈ new host rev, t.1 ∉ ignored → w.1 ≠ t.1 := fun t _ w hw hti hx => hti (hx ▸ new_ignored w hw)
  obtain ⟨h1, h2⟩ := mem_foldl_keep hm hfr
  refine ⟨_, parse_str hm hc hl host rev, ?_⟩
  have hlen : m.length = (m.foldl keep (new host rev)).length := by
    rw [h2]
    have h3 : (new host rev).length = 2 := rfl
    rw [h3, ← hi]
    exact filter_split m
  unfold eqOp
  rw [if_neg (by simpa using hlen)]
  refine eqLoop_true fun t ht hti => ?_
  exact find_mem (nodup_keep hm (by rw [show new host rev = [("git-rev".toList, rev), ("host".toList, host)] from rfl]; simp) hfr) ((h1 t).2 (Or.inl ⟨ht, hti⟩))

/-- The conditions are met by a run as the benchmark creates it; it is read back on another machine. -/
def sample : Traits := [("algo".toList, "c".toList), ("dist".toList, "two words".toList), ("git-rev".toList, "abc".toList),
  ("host".toList, "h".toList), ("n".toList, "1000".toList)]

instance (n : Str) : Decidable (CleanName n) := inferInstanceAs (Decidable (_ ∧ _))
instance (v : Str) : Decidable (CleanValue v) := inferInstanceAs (Decidable (_ ∧ _ ∧ _ ∧ _))

example : (sample.map Prod.fst).Nodup ∧ (∀ t ∈ sample, CleanName t.1 ∧ CleanValue t.2) ∧
    (str sample traitSep innerSep).length < 2 ^ 63 ∧ (sample.filter (fun t => t.1 ∈ ignored)).length = 2 := by decide +kernel

example : str sample traitSep innerSep = "algo: c   dist: two words   git-rev: abc   host: h   n: 1000".toList ∧
    parse "other".toList "def".toList (str sample traitSep innerSep) traitSep innerSep 10 =
      .done [("algo".toList, "c".toList), ("dist".toList, "two words".toList), ("git-rev".toList, "def".toList),
        ("host".toList, "other".toList), ("n".toList, "1000".toList)] := by decide +kernel

theorem parseLoop_mono {run tsep isep : Str} : ∀ {fuel cur m r}, parseLoop run tsep isep fuel cur m = .done r → ∀ k, fuel ≤ k →
    parseLoop run tsep isep k cur m = .done r
  | 0, _, _, _, h, _, _ => by simp [parseLoop] at h
  | fuel + 1, cur, m, r, h, k, hk => by
    obtain ⟨k, rfl⟩ : ∃ j, k = j + 1 := ⟨k - 1, by omega⟩
    unfold parseLoop at h ⊢
    split at h
    · rename_i hc
      rw [if_pos hc]
      dsimp only at h ⊢
      cases ha : substr run cur (sub64 (find run isep cur) cur) with
      | done name =>
        rw [ha] at h
        simp only [Res.bind_done] at h ⊢
        cases hb : substr run (add64 (find run isep cur) isep.length)
          (sub64 (if find run tsep cur ≠ npos then find run tsep cur else run.length + 1) (add64 (find run isep cur) isep.length)) with
        | done value =>
          rw [hb] at h
          simp only [Res.bind_done] at h ⊢
          exact parseLoop_mono h k (by omega)
        | ub => rw [hb] at h; cases h
        | timeout => rw [hb] at h; cases h
      | ub => rw [ha] at h; cases h
      | timeout => rw [ha] at h; cases h
    · rename_i hc
      rw [if_neg hc]
      exact h

theorem returns_of {host rev run tsep isep : Str} {fuel : Nat} {r : Traits} (h : parse host rev run tsep isep fuel = .done r) :
    Returns (parse host rev run tsep isep) r := ⟨fuel, fun k hk => parseLoop_mono h k hk⟩

/-- **C98 violated.** An empty value swallows the following trait: the name of the next trait and its value become the value of the
trait, and a trait with a new name appears. -/
theorem C98_empty_value_violated : ∃ (m r : Traits) (host rev : Str), (m.map Prod.fst).Nodup ∧ (∀ t ∈ m, CleanName t.1) ∧
    Returns (parse host rev (str m traitSep innerSep) traitSep innerSep) r ∧
    ("dist".toList, []) ∈ m ∧ ("dist".toList, "   n: 10".toList) ∈ r ∧ (" n".toList, "10".toList) ∈ r ∧ ∀ v, ("n".toList, v) ∉ r := by
  refine ⟨[("dist".toList, []), ("n".toList, "10".toList)], [(" n".toList, "10".toList), ("dist".toList, "   n: 10".toList),
    ("git-rev".toList, []), ("host".toList, [])], [], [], by decide, by decide, returns_of (fuel := 4) (by decide +kernel), ?_, ?_, ?_, ?_⟩
  · simp
  · simp
  · simp
  · intro v hv
    simp at hv

/-- **C98 violated.** A value that ends with a space: the space moves to the name of the next trait. -/
theorem C98_trailing_space_violated : ∃ (m r : Traits) (host rev : Str), (m.map Prod.fst).Nodup ∧ (∀ t ∈ m, CleanName t.1 ∧ t.2 ≠ []) ∧
    Returns (parse host rev (str m traitSep innerSep) traitSep innerSep) r ∧ ∃ v, ("n".toList, v) ∈ m ∧ ∀ v, ("n".toList, v) ∉ r := by
  refine ⟨[("dist".toList, "a ".toList), ("n".toList, "10".toList)], [(" n".toList, "10".toList), ("dist".toList, "a".toList),
    ("git-rev".toList, []), ("host".toList, [])], [], [], by decide, by decide, returns_of (fuel := 4) (by decide +kernel),
    "10".toList, ?_, ?_⟩
  · simp
  · intro v hv
    simp at hv

/-- **C98 violated.** As soon as a run has been started (`start-time` has been added), it does not equal the run read from its description:
`operator==` compares the numbers of all traits, including the ignored ones. -/
theorem C98_started_violated : ∃ (m r : Traits) (host rev : Str), (m.map Prod.fst).Nodup ∧ (∀ t ∈ m, CleanName t.1 ∧ CleanValue t.2) ∧
    (∃ m0, m = addTrait "start-time".toList "12".toList m0 ∧ eqOp m0 m0 = true) ∧
    Returns (parse host rev (str m traitSep innerSep) traitSep innerSep) r ∧ eqOp m r = false := by
  refine ⟨addTrait "start-time".toList "12".toList sample, _, "h".toList, "abc".toList, by decide +kernel, by decide +kernel,
    ⟨sample, rfl, by decide +kernel⟩, returns_of (fuel := 10) (r := sample) (by decide +kernel), by decide +kernel⟩

/-- **C98 violated.** `operator==` is not symmetric. -/
theorem C98_symmetric_violated : ∃ a b : Traits, (a.map Prod.fst).Nodup ∧ (b.map Prod.fst).Nodup ∧ eqOp a b = true ∧ eqOp b a = false := by
  refine ⟨addTrait "start-time".toList "12".toList (new [] []), addTrait "algo".toList "c".toList (new [] []), ?_⟩
  decide +kernel

/-- **C98 violated.** A text without the inner separator is accepted: it becomes the name of a trait, and its value is the text from the
second character on, since the position behind the missing separator wraps around. -/
theorem C98_no_separator_violated : ∃ r, Returns (parse [] [] "algo=c".toList traitSep innerSep) r ∧ ("algo=c".toList, "lgo=c".toList) ∈ r :=
  ⟨_, returns_of (fuel := 2) (r := [("algo=c".toList, "lgo=c".toList), ("git-rev".toList, []), ("host".toList, [])]) (by decide +kernel), by simp⟩

/-- **C98 violated.** With an empty separator of the traits, the constructor does not return. -/
theorem C98_empty_separator_violated (host rev : Str) : Diverges (parse host rev "a: b".toList [] innerSep) := by
  intro k
  unfold parse
  generalize new host rev = m
  induction k generalizing m with
  | zero => rfl
  | succ k ih =>
    have h1 : find "a: b".toList innerSep 0 = 1 := by decide
    have h2 : find "a: b".toList [] 0 = 0 := by decide
    have h3 : substr "a: b".toList 0 (sub64 1 0) = .done "a".toList := by decide
    have h4 : substr "a: b".toList (add64 1 innerSep.length) (sub64 0 (add64 1 innerSep.length)) = .done "b".toList := by decide +kernel
    have h5 : (0 : Nat) ≠ npos := by decide
    have h6 : add64 0 ([] : Str).length = 0 := by decide
    unfold parseLoop
    rw [if_pos (by decide)]
    dsimp only
    rw [h1, h2, if_pos h5, h3]
    simp only [Res.bind_done]
    rw [h4]
    simp only [Res.bind_done]
    rw [h6]
    exact ih _

/-- The lexicographic order of strings by the codes of their characters. -/
def Before (a b : Str) : Prop := List.Lex (fun c d : Char => c.toNat < d.toNat) a b

theorem less_iff : ∀ (a b : Str), less a b = true ↔ Before a b
  | [], [] => by constructor <;> intro h <;> cases h
  | _ :: _, [] => by constructor <;> intro h <;> cases h
  | [], _ :: _ => ⟨fun _ => List.Lex.nil, fun _ => rfl⟩
  | a :: s, b :: t => by
    unfold less
    have ih := less_iff s t
    by_cases h : a = b
    · subst h
      rw [if_pos rfl, ih]
      constructor
      · exact fun h => List.Lex.cons h
      · intro h
        cases h with
        | cons h => exact h
        | rel h => exact absurd h (Nat.lt_irrefl _)
    · rw [if_neg h, decide_eq_true_iff]
      constructor
      · exact fun h => List.Lex.rel h
      · intro h'
        cases h' with
        | cons _ => exact absurd rfl h
        | rel h => exact h

theorem before_trans : ∀ {a b c : Str}, Before a b → Before b c → Before a c
  | _, _, _, .nil, .cons _ => .nil
  | _, _, _, .nil, .rel _ => .nil
  | _, _, _, .cons h, .cons h' => .cons (before_trans h h')
  | _, _, _, .cons _, .rel h' => .rel h'
  | _, _, _, .rel h, .cons _ => .rel h
  | _, _, _, .rel h, .rel h' => .rel (Nat.lt_trans h h')

theorem before_of_not : ∀ {a b : Str}, a ≠ b → ¬ Before a b → Before b a
  | [], [], h, _ => absurd rfl h
  | _ :: _, [], _, _ => .nil
  | [], _ :: _, _, h => absurd List.Lex.nil h
  | a :: s, b :: t, h, hn => by
    by_cases hab : a = b
    · subst hab
      exact .cons (before_of_not (fun e => h (by rw [e])) (fun e => hn (.cons e)))
    · rcases Nat.lt_trichotomy a.toNat b.toNat with h1 | h1 | h1
      · exact absurd (show Before (a :: s) (b :: t) from List.Lex.rel h1) hn
      · exact absurd (Char.ext (UInt32.toNat_inj.1 h1)) hab
      · exact .rel h1

theorem mem_add {name value : Str} : ∀ {m : Traits} {u}, u ∈ addTrait name value m → u.1 = name ∨ u ∈ m
  | [], u, h => by simp only [addTrait, List.mem_singleton] at h; subst h; exact .inl rfl
  | t :: ts, u, h => by
    unfold addTrait at h
    split at h
    · exact .inr h
    · split at h
      · rcases List.mem_cons.1 h with rfl | h
        · exact .inl rfl
        · exact .inr h
      · rcases List.mem_cons.1 h with rfl | h
        · exact .inr (by simp)
        · exact (mem_add h).imp id (fun h => List.mem_cons_of_mem _ h)

theorem mem_update {name value : Str} : ∀ {m : Traits} {u}, u ∈ updateTrait name value m → u.1 = name ∨ u ∈ m
  | [], u, h => by simp only [updateTrait, List.mem_singleton] at h; subst h; exact .inl rfl
  | t :: ts, u, h => by
    unfold updateTrait at h
    split at h
    · rcases List.mem_cons.1 h with rfl | h
      · exact .inl rfl
      · exact .inr (List.mem_cons_of_mem _ h)
    · split at h
      · rcases List.mem_cons.1 h with rfl | h
        · exact .inl rfl
        · exact .inr h
      · rcases List.mem_cons.1 h with rfl | h
        · exact .inr (by simp)
        · exact (mem_update h).imp id (fun h => List.mem_cons_of_mem _ h)

/-- **C98, the order of the traits.** Adding and updating traits keeps them sorted by name, in the lexicographic
order of strings, so that every name occurs once and the text does not depend on the order of the additions. -/
theorem C98_sorted (name value : Str) {m : Traits} (h : m.Pairwise (fun t u => Before t.1 u.1)) :
    (addTrait name value m).Pairwise (fun t u => Before t.1 u.1) ∧ (updateTrait name value m).Pairwise (fun t u => Before t.1 u.1) := by
  induction m with
  | nil => simp [addTrait, updateTrait]
  | cons t ts ih =>
    obtain ⟨h1, h2⟩ := List.pairwise_cons.1 h
    obtain ⟨ha, hu⟩ := ih h2
    unfold addTrait updateTrait
    by_cases hn : name = t.1
    · rw [if_pos hn, if_pos hn]
      exact ⟨h, List.pairwise_cons.2 ⟨fun u hu => by rw [hn]; exact h1 u hu, h2⟩⟩
    · rw [if_neg hn, if_neg hn]
      by_cases hl : less name t.1 = true
      · rw [if_pos hl, if_pos hl]
        have hb := (less_iff _ _).1 hl
        have : ((name, value) :: t :: ts).Pairwise (fun t u => Before t.1 u.1) := by
          refine List.pairwise_cons.2 ⟨fun u hu => ?_, h⟩
          rcases List.mem_cons.1 hu with rfl | hu
          · exact hb
          · exact before_trans hb (h1 u hu)
        exact ⟨this, this⟩
      · rw [if_neg hl, if_neg hl]
        have hb := before_of_not hn (fun e => hl ((less_iff _ _).2 e))
        refine ⟨List.pairwise_cons.2 ⟨fun u hm => ?_, ha⟩, List.pairwise_cons.2 ⟨fun u hm => ?_, hu⟩⟩
        · rcases mem_add hm with e | hm
          · rw [e]; exact hb
          · exact h1 u hm
        · rcases mem_update hm with e | hm
          · rw [e]; exact hb
          · exact h1 u hm

theorem before_irrefl : ∀ {a : Str}, ¬ Before a a
  | _ :: _, .cons h => before_irrefl h
  | _ :: _, .rel h => Nat.lt_irrefl _ h

theorem get_cons (n : Str) (t : Str × Str) (ts : Traits) : getTrait (t :: ts) n = if t.1 = n then .done t.2 else getTrait ts n := by
  unfold getTrait
  rw [List.find?_cons]
  by_cases h : t.1 = n
  · rw [if_pos h]; simp [h]
  · rw [if_neg h]
    have : (t.1 == n) = false := by simpa using h
    rw [this]

theorem not_mem_of_before {n : Str} {t : Str × Str} {ts : Traits} (h : (t :: ts).Pairwise (fun t u => Before t.1 u.1)) (hb : Before n t.1) :
    n ∉ (t :: ts).map Prod.fst := by
  intro hm
  obtain ⟨u, hu, rfl⟩ := List.mem_map.1 hm
  rcases List.mem_cons.1 hu with rfl | hu
  · exact before_irrefl hb
  · exact before_irrefl (before_trans hb ((List.pairwise_cons.1 h).1 u hu))

/-- **C98, the traits as a map.** `getTrait` throws if and only if there is no such trait, and returns its value otherwise.
After `addTrait`, a trait that was there keeps its value, and otherwise has the new one; after `updateTrait` it has the
new one in any case; the other traits are the same. -/
theorem C98_map (name value n : Str) {m : Traits} (hs : m.Pairwise (fun t u => Before t.1 u.1)) :
    (getTrait m n = .ub ↔ n ∉ m.map Prod.fst) ∧
    (∀ v, getTrait m n = .done v ↔ (n, v) ∈ m) ∧
    (getTrait (addTrait name value m) n = if n = name ∧ n ∉ m.map Prod.fst then .done value else getTrait m n) ∧
    (getTrait (updateTrait name value m) n = if n = name then .done value else getTrait m n) := by
  induction m with
  | nil =>
    refine ⟨by simp [getTrait], by simp [getTrait], ?_, ?_⟩ <;> simp only [addTrait, updateTrait, get_cons] <;>
      by_cases h : n = name <;> simp [h, eq_comm (a := name)]
  | cons t ts ih =>
    obtain ⟨h1, h2⟩ := List.pairwise_cons.1 hs
    obtain ⟨ia, ib, ic, id⟩ := ih h2
    refine ⟨?_, fun v => ?_, ?_, ?_⟩
    · rw [get_cons]
      by_cases h : t.1 = n
      · rw [if_pos h]; simp [h]
      · rw [if_neg h, ia]
        simp [Ne.symm h]
    · rw [get_cons]
      by_cases h : t.1 = n
      · rw [if_pos h, List.mem_cons]
        constructor
        · intro e
          left
          rw [← h, ← Res.done.inj e]
        · rintro (e | e)
          · rw [← e]
          · exact absurd (h1 _ e) (by rw [h]; exact before_irrefl)
      · rw [if_neg h, ib, List.mem_cons]
        constructor
        · exact .inr
        · rintro (e | e)
          · exact absurd (by rw [← e]) h
          · exact e
    · unfold addTrait
      by_cases hn : name = t.1
      · rw [if_pos hn, if_neg]
        rintro ⟨e, h⟩
        exact h (by simp [e, hn])
      · rw [if_neg hn]
        by_cases hl : less name t.1 = true
        · rw [if_pos hl, get_cons]
          by_cases h3 : n = name
          · subst h3
            rw [if_pos rfl, if_pos ⟨rfl, not_mem_of_before hs ((less_iff _ _).1 hl)⟩]
          · rw [if_neg (Ne.symm h3), if_neg (fun h => h3 h.1)]
        · rw [if_neg hl, get_cons, get_cons, ic]
          by_cases h3 : t.1 = n
          · rw [if_pos h3, if_pos h3, if_neg]
            rintro ⟨e, _⟩
            exact hn (by rw [← e, h3])
          · rw [if_neg h3, if_neg h3]
            simp only [List.map_cons, List.mem_cons, not_or, Ne.symm h3, not_false_eq_true, true_and]
    · unfold updateTrait
      by_cases hn : name = t.1
      · rw [if_pos hn, get_cons, get_cons]
        by_cases h3 : n = name
        · rw [if_pos h3.symm, if_pos h3]
        · rw [if_neg (Ne.symm h3), if_neg h3, if_neg (fun e => h3 (by rw [hn, e]))]
      · rw [if_neg hn]
        by_cases hl : less name t.1 = true
        · rw [if_pos hl, get_cons]
          by_cases h3 : n = name
          · rw [if_pos h3.symm, if_pos h3]
          · rw [if_neg (Ne.symm h3), if_neg h3]
        · rw [if_neg hl, get_cons, get_cons, id]
          by_cases h3 : t.1 = n
          · rw [if_pos h3, if_pos h3, if_neg]
            exact fun e => hn (by rw [← e, h3])
          · rw [if_neg h3, if_neg h3]

/-- Sorted lists of traits exist, and one name can be the beginning of another. -/
example : (updateTrait "a".toList [] (addTrait "b".toList [] (addTrait "ab".toList [] []))).map (·.1) = ["a".toList, "ab".toList, "b".toList] := by decide

end Run
end Verif

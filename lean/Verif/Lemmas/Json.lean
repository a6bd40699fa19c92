import Verif.Spec.Json
import Mathlib.Algebra.Group.Even
import Mathlib.Algebra.Ring.Parity
import Mathlib.Tactic.Linarith

/-!
# The grammar of JSON is unambiguous
-/
namespace Verif
namespace Json

theorem split (p : Char → Prop) : ∀ {a b r r' : List Char}, (∀ c ∈ a, p c) → (∀ c ∈ b, p c) →
    (∀ c ∈ r.head?, ¬ p c) → (∀ c ∈ r'.head?, ¬ p c) → a ++ r = b ++ r' → a = b ∧ r = r'
  | [], [], r, r', _, _, _, _, h => ⟨rfl, h⟩
  | [], b :: bs, r, r', _, hb, hr, _, h => by
    have h' : r = b :: (bs ++ r') := h
    subst h'
    exact absurd (hb b (by simp)) (hr b (by simp))
  | a :: as, [], r, r', ha, _, _, hr', h => by
    have h' : r' = a :: (as ++ r) := h.symm
    subst h'
    exact absurd (ha a (by simp)) (hr' a (by simp))
  | a :: as, b :: bs, r, r', ha, hb, hr, hr', h => by
    rw [List.cons_append, List.cons_append] at h
    injection h with h1 h2
    obtain ⟨h3, h4⟩ := split p (fun c hc => ha c (by simp [hc])) (fun c hc => hb c (by simp [hc])) hr hr' h2
    exact ⟨by rw [h1, h3], h4⟩

/-- Characters of numbers. -/
def Numeric (c : Char) : Prop := IsDigit c ∨ c = '.' ∨ c = 'e' ∨ c = 'E' ∨ c = '+' ∨ c = '-'

theorem not_digit {c : Char} (h : c = '.' ∨ c = 'e' ∨ c = 'E' ∨ c = '+' ∨ c = '-') : ¬ IsDigit c := by
  rcases h with h | h | h | h | h <;> subst h <;> simp [IsDigit]

theorem frac_numeric {fs f : List Char} (h : Frac fs f) : ∀ c ∈ f, Numeric c := by
  cases h with
  | none => simp
  | some ds hne hd =>
    intro c hc
    rcases List.mem_cons.1 hc with rfl | hc
    · exact Or.inr (Or.inl rfl)
    · exact Or.inl (hd c hc)

theorem exp_numeric {e : Int} {x : List Char} (h : Exp e x) : ∀ c ∈ x, Numeric c := by
  cases h with
  | none => simp
  | pos c sg ds hc hs hne hd =>
    intro d hd'
    rcases List.mem_cons.1 hd' with rfl | hd'
    · rcases hc with rfl | rfl <;> simp [Numeric]
    · rcases List.mem_append.1 hd' with hd' | hd'
      · rcases hs with rfl | rfl
        · simp at hd'
        · rw [List.mem_singleton] at hd'
          subst hd'; simp [Numeric]
      · exact Or.inl (hd d hd')
  | neg c ds hc hne hd =>
    intro d hd'
    rcases List.mem_cons.1 hd' with rfl | hd'
    · rcases hc with rfl | rfl <;> simp [Numeric]
    · rcases List.mem_cons.1 hd' with rfl | hd'
      · simp [Numeric]
      · exact Or.inl (hd d hd')

theorem num_numeric {q : ℚ} {s : List Char} (h : Num q s) : ∀ c ∈ s, Numeric c := by
  cases h with
  | mk neg i fs f e x hi hf hx =>
    intro c hc
    rcases List.mem_append.1 hc with hc | hc
    · cases neg <;> simp at hc
      subst hc; simp [Numeric]
    · rcases List.mem_append.1 hc with hc | hc
      · exact Or.inl (hi.1 c hc)
      · rcases List.mem_append.1 hc with hc | hc
        · exact frac_numeric hf c hc
        · exact exp_numeric hx c hc

theorem int_head {i : List Char} (h : IsInt i) : ∃ c t, i = c :: t ∧ IsDigit c := by
  obtain ⟨h1, h2⟩ := h
  rcases h2 with rfl | ⟨c, t, rfl, -⟩
  · exact ⟨'0', [], rfl, h1 _ (by simp)⟩
  · exact ⟨c, t, rfl, h1 c (by simp)⟩

theorem num_head {q : ℚ} {s : List Char} (h : Num q s) : ∃ c t, s = c :: t ∧ (c = '-' ∨ IsDigit c) := by
  cases h with
  | mk neg i fs f e x hi hf hx =>
    obtain ⟨c, t, rfl, hc⟩ := int_head hi
    cases neg
    · exact ⟨c, t ++ (f ++ x), rfl, Or.inr hc⟩
    · exact ⟨'-', c :: t ++ (f ++ x), rfl, Or.inl rfl⟩

theorem exp_head {e : Int} {x : List Char} (h : Exp e x) : ∀ c ∈ x.head?, c = 'e' ∨ c = 'E' := by
  cases h with
  | none => simp
  | pos c sg ds hc hs hne hd => intro d hd'; simp at hd'; subst hd'; exact hc
  | neg c ds hc hne hd => intro d hd'; simp at hd'; subst hd'; exact hc

theorem exp_head' {e : Int} {x : List Char} (h : Exp e x) : ∀ c ∈ x.head?, ¬ IsDigit c := fun c hc =>
  not_digit (by rcases exp_head h c hc with h | h <;> simp [h])

theorem frac_exp_head {fs f x : List Char} {e : Int} (hf : Frac fs f) (hx : Exp e x) :
    ∀ c ∈ (f ++ x).head?, ¬ IsDigit c := by
  cases hf with
  | none => exact exp_head' hx
  | some ds hne hd => intro c hc; simp at hc; subst hc; simp [IsDigit]

theorem exp_unique {e e' : Int} {x : List Char} (h : Exp e x) (h' : Exp e' x) : e = e' := by
  generalize hy : x = y at h'
  cases h with
  | none =>
    cases h' with
    | none => rfl
    | pos => simp at hy
    | neg => simp at hy
  | pos c sg ds hc hs hne hd =>
    cases h' with
    | none => simp at hy
    | pos c' sg' ds' hc' hs' hne' hd' =>
      injection hy with h1 h2
      obtain ⟨d, t, rfl⟩ := List.exists_cons_of_ne_nil hne
      obtain ⟨d', t', rfl⟩ := List.exists_cons_of_ne_nil hne'
      rcases hs with rfl | rfl <;> rcases hs' with rfl | rfl
      · simp only [List.nil_append] at h2
        rw [h2]
      · simp only [List.nil_append, List.cons_append, List.cons.injEq] at h2
        exact absurd (hd d (by simp)) (not_digit (by simp [h2.1]))
      · simp only [List.nil_append, List.cons_append, List.cons.injEq] at h2
        exact absurd (hd' d' (by simp)) (not_digit (by simp [← h2.1]))
      · simp only [List.nil_append, List.cons_append, List.cons.injEq] at h2
        obtain ⟨-, h3, h4⟩ := h2
        rw [h3, h4]
    | neg c' ds' hc' hne' hd' =>
      injection hy with h1 h2
      obtain ⟨d, t, rfl⟩ := List.exists_cons_of_ne_nil hne
      rcases hs with rfl | rfl
      · simp only [List.nil_append, List.cons.injEq] at h2
        exact absurd (hd d (by simp)) (not_digit (by simp [h2.1]))
      · simp at h2
  | neg c ds hc hne hd =>
    cases h' with
    | none => simp at hy
    | pos c' sg' ds' hc' hs' hne' hd' =>
      injection hy with h1 h2
      obtain ⟨d, t, rfl⟩ := List.exists_cons_of_ne_nil hne'
      rcases hs' with rfl | rfl
      · simp only [List.nil_append, List.cons.injEq] at h2
        exact absurd (hd' d (by simp)) (not_digit (by simp [← h2.1]))
      · simp at h2
    | neg c' ds' hc' hne' hd' =>
      injection hy with h1 h2
      injection h2 with h3 h4
      rw [h4]

theorem num_unique {q q' : ℚ} {s : List Char} (h : Num q s) (h' : Num q' s) : q = q' := by
  generalize hy : s = y at h'
  cases h with
  | mk neg i fs f e x hi hf hx =>
    cases h' with
    | mk neg' i' fs' f' e' x' hi' hf' hx' =>
      have hn : neg = neg' ∧ i ++ (f ++ x) = i' ++ (f' ++ x') := by
        obtain ⟨c, t, rfl, hc⟩ := int_head hi
        obtain ⟨c', t', rfl, hc'⟩ := int_head hi'
        cases neg <;> cases neg' <;> simp only [if_true, if_false, List.nil_append, List.cons_append, List.cons.injEq,
          Bool.false_eq_true] at hy
        · exact ⟨rfl, by simp only [List.cons_append, hy.1, hy.2]⟩
        · exact absurd hc (not_digit (by simp [hy.1]))
        · exact absurd hc' (not_digit (by simp [← hy.1]))
        · exact ⟨rfl, by simp only [List.cons_append, hy.2.1, hy.2.2]⟩
      obtain ⟨rfl, h1⟩ := hn
      obtain ⟨rfl, h2⟩ := split IsDigit hi.1 hi'.1 (frac_exp_head hf hx) (frac_exp_head hf' hx') h1
      have h3 : fs = fs' ∧ x = x' := by
        cases hf with
        | none =>
          cases hf' with
          | none => exact ⟨rfl, h2⟩
          | some ds hne hd =>
            have := exp_head hx '.' (by rw [List.nil_append] at h2; rw [h2]; simp)
            simp at this
        | some ds hne hd =>
          cases hf' with
          | none =>
            have := exp_head hx' '.' (by rw [List.nil_append] at h2; rw [← h2]; simp)
            simp at this
          | some ds' hne' hd' =>
            rw [List.cons_append, List.cons_append] at h2
            injection h2 with _ h2
            exact split IsDigit hd hd' (exp_head' hx) (exp_head' hx') h2
      obtain ⟨rfl, rfl⟩ := h3
      rw [exp_unique hx hx']

theorem hex_unique {c : Char} {n n' : Nat} (h : Hex c n) (h' : Hex c n') : n = n' := by
  rcases h with ⟨h1, h2⟩ | ⟨h1, h2, h3⟩ | ⟨h1, h2, h3⟩ <;> rcases h' with ⟨g1, g2⟩ | ⟨g1, g2, g3⟩ | ⟨g1, g2, g3⟩ <;>
    (try simp only [IsDigit] at *) <;> omega

theorem escapes_unique {c c' d : Char} (h : (d, c) ∈ escapes) (h' : (d, c') ∈ escapes) : c = c' := by
  simp only [escapes, List.mem_cons, Prod.mk.injEq, List.not_mem_nil, or_false] at h h'
  rcases h with ⟨rfl, rfl⟩ | ⟨rfl, rfl⟩ | ⟨rfl, rfl⟩ | ⟨rfl, rfl⟩ | ⟨rfl, rfl⟩ | ⟨rfl, rfl⟩ | ⟨rfl, rfl⟩ | ⟨rfl, rfl⟩ <;>
    simp at h' <;> exact h'.symm

theorem not_escape {c : Char} : ('u', c) ∉ escapes := by
  simp [escapes]

theorem body_unique {s t : List Char} (h : Body s t) : ∀ {s' t' r r' : List Char}, Body s' t' →
    t ++ '"' :: r = t' ++ '"' :: r' → s = s' ∧ t = t' ∧ r = r' := by
  induction h with
  | nil =>
    intro s' t' r r' h' he
    cases h' with
    | nil => simp at he; exact ⟨rfl, rfl, he⟩
    | plain c s t h32 hq hb h => simp at he; exact absurd he.1.symm hq
    | esc => simp at he
    | hex => simp at he
  | plain c s t h32 hq hb h ih =>
    intro s' t' r r' h' he
    cases h' with
    | nil => simp at he; exact absurd he.1 hq
    | plain c' s1 t1 h32' hq' hb' h' =>
      rw [List.cons_append, List.cons_append] at he
      injection he with h1 h2
      obtain ⟨h3, h4, h5⟩ := ih h' h2
      exact ⟨by rw [h1, h3], by rw [h1, h4], h5⟩
    | esc => simp at he; exact absurd he.1 hb
    | hex => simp at he; exact absurd he.1 hb
  | esc c d s t hm h ih =>
    intro s' t' r r' h' he
    cases h' with
    | nil => simp at he
    | plain c' s1 t1 h32' hq' hb' h' => simp at he; exact absurd he.1.symm hb'
    | esc c' d' s1 t1 hm' h' =>
      simp only [List.cons_append, List.cons.injEq, true_and] at he
      obtain ⟨rfl, he⟩ := he
      obtain ⟨h3, h4, h5⟩ := ih h' he
      exact ⟨by rw [h3, escapes_unique hm hm'], by rw [h4], h5⟩
    | hex =>
      simp only [List.cons_append, List.cons.injEq, true_and] at he
      obtain ⟨rfl, -⟩ := he
      exact absurd hm not_escape
  | hex c0 c1 c2 c3 n0 n1 n2 n3 s t h0 h1 h2 h3 h ih =>
    intro s' t' r r' h' he
    cases h' with
    | nil => simp at he
    | plain c' s1 t1 h32' hq' hb' h' => simp at he; exact absurd he.1.symm hb'
    | esc c' d' s1 t1 hm' h' =>
      simp only [List.cons_append, List.cons.injEq, true_and] at he
      obtain ⟨rfl, -⟩ := he
      exact absurd hm' not_escape
    | hex d0 d1 d2 d3 m0 m1 m2 m3 s1 t1 g0 g1 g2 g3 h' =>
      simp only [List.cons_append, List.cons.injEq, true_and] at he
      obtain ⟨rfl, rfl, rfl, rfl, he⟩ := he
      obtain ⟨e1, e2, e3⟩ := ih h' he
      rw [hex_unique h0 g0, hex_unique h1 g1, hex_unique h2 g2, hex_unique h3 g3]
      exact ⟨by rw [e1], by rw [e2], e3⟩

/-- White space as predicate on characters. -/
def IsWs (c : Char) : Prop := c = ' ' ∨ c = '\t' ∨ c = '\n' ∨ c = '\r'

/-- First character of a value. -/
def Start (c : Char) : Prop := ¬ IsWs c ∧ c ≠ ',' ∧ c ≠ ']' ∧ c ≠ '}' ∧ c ≠ ':'

theorem digit_start {c : Char} (h : c = '-' ∨ IsDigit c) : Start c := by
  rcases h with rfl | ⟨h1, h2⟩
  · simp [Start, IsWs]
  · refine ⟨?_, ?_, ?_, ?_, ?_⟩
    · rintro (rfl | rfl | rfl | rfl) <;> simp at h1
    all_goals rintro rfl; simp at h1 h2

theorem val_head {j : J} {s : List Char} (h : Der (.val j) s) : ∃ c t, s = c :: t ∧ Start c := by
  cases h with
  | num q s h => obtain ⟨c, t, h1, h2⟩ := num_head h; exact ⟨c, t, h1, digit_start h2⟩
  | _ => exact ⟨_, _, rfl, by simp [Start, IsWs]⟩

theorem elem_head {j : J} {s : List Char} (h : Der (.elem j) s) : ∃ v c t, s = v ++ c :: t ∧ Ws v ∧ Start c := by
  cases h with
  | elem _ v s w hv hw h =>
    obtain ⟨c, t, rfl, hc⟩ := val_head h
    exact ⟨v, c, t ++ w, rfl, hv, hc⟩

theorem elems_head {l : List J} {s : List Char} (h : Der (.elems l) s) : ∃ v c t, s = v ++ c :: t ∧ Ws v ∧ Start c := by
  cases h with
  | one j s h => exact elem_head h
  | more j l s t h hl =>
    obtain ⟨v, c, t', rfl, hv, hc⟩ := elem_head h
    exact ⟨v, c, t' ++ ',' :: t, by simp, hv, hc⟩

theorem mem_head {k : List Char} {j : J} {s : List Char} (h : Der (.mem k j) s) : ∃ v t, s = v ++ '"' :: t ∧ Ws v := by
  cases h with
  | mem _ _ v t w s hv hk hw h => exact ⟨v, _, rfl, hv⟩

theorem mems_head {l : List (List Char × J)} {s : List Char} (h : Der (.mems l) s) :
    ∃ v t, s = v ++ '"' :: t ∧ Ws v := by
  cases h with
  | one' k j s h => exact mem_head h
  | more' k j l s t h hl =>
    obtain ⟨v, t', rfl, hv⟩ := mem_head h
    exact ⟨v, t' ++ ',' :: t, by simp, hv⟩

/-- What may come after a text derived from a nonterminal. -/
def Follow : Sym → List Char → Prop
  | .val _, r => ∀ c ∈ r.head?, ¬ Numeric c
  | .elem _, r | .mem _ _, r => ∀ c ∈ r.head?, ¬ Numeric c ∧ ¬ IsWs c
  | .elems _, r | .mems _, r => ∀ c ∈ r.head?, ¬ Numeric c ∧ ¬ IsWs c ∧ c ≠ ','

/-- Nonterminals of the same kind. -/
def Same : Sym → Sym → Prop
  | .val _, .val _ | .elem _, .elem _ | .elems _, .elems _ | .mem _ _, .mem _ _ | .mems _, .mems _ => True
  | _, _ => False

theorem comma : ¬ Numeric ',' ∧ ¬ IsWs ',' := by simp [Numeric, IsDigit, IsWs]

theorem ws_not_numeric {c : Char} (h : IsWs c) : ¬ Numeric c := by
  rcases h with rfl | rfl | rfl | rfl <;> simp [Numeric, IsDigit]

theorem follow_ws {w r : List Char} (hw : Ws w) (hr : ∀ c ∈ r.head?, ¬ Numeric c ∧ ¬ IsWs c) :
    ∀ c ∈ (w ++ r).head?, ¬ Numeric c := by
  cases w with
  | nil => exact fun c hc => (hr c hc).1
  | cons d w =>
    intro c hc
    simp at hc
    subst hc
    exact ws_not_numeric (hw _ (by simp))

theorem num_ne {q : ℚ} {s r : List Char} {c : Char} {t : List Char} (h : Num q s) (hc : ¬ Numeric c) :
    s ++ r ≠ c :: t := by
  intro he
  obtain ⟨d, u, rfl, hd⟩ := num_head h
  injection he with h1 _
  subst h1
  exact hc (num_numeric h _ (by simp))

theorem val_unique_num {q : ℚ} {s s' r r' : List Char} {j : J} (h : Num q s) (h' : Der (.val j) s')
    (hr : ∀ c ∈ r.head?, ¬ Numeric c) (hr' : ∀ c ∈ r'.head?, ¬ Numeric c) (he : s ++ r = s' ++ r') :
    J.num q = j ∧ s = s' ∧ r = r' := by
  cases h' with
  | num q' _ h' =>
    obtain ⟨rfl, h2⟩ := split Numeric (num_numeric h) (num_numeric h') hr hr' he
    exact ⟨by rw [num_unique h h'], rfl, h2⟩
  | _ => exact absurd he (num_ne h (by simp [Numeric, IsDigit]))

theorem close_unique {w v r r' t : List Char} {c d : Char} (hw : Ws w) (hv : Ws v) (hc : ¬ IsWs c) (hd : ¬ IsWs d)
    (h : w ++ c :: r = (v ++ d :: t) ++ r') : c = d := by
  rw [List.append_assoc, List.cons_append] at h
  obtain ⟨-, h⟩ := split IsWs hw hv (by simpa using hc) (by simpa using hd) h
  injection h

theorem der_unique {a : Sym} {s : List Char} (h : Der a s) : ∀ {b : Sym} {s' r r' : List Char}, Same a b → Der b s' →
    Follow a r → Follow a r' → s ++ r = s' ++ r' → a = b ∧ s = s' ∧ r = r' := by
  induction h with
  | num q s h =>
    intro b s' r r' hab h' hr hr' he
    cases b with
    | val j =>
      obtain ⟨h1, h2, h3⟩ := val_unique_num h h' hr hr' he
      exact ⟨by rw [h1], h2, h3⟩
    | _ => exact hab.elim
  | null =>
    intro b s' r r' hab h' hr hr' he
    cases b with
    | val j =>
      cases h' with
      | null => simp at he; simp [he]
      | num q _ h => exact absurd he.symm (num_ne h (by simp [Numeric, IsDigit]))
      | _ => simp at he
    | _ => exact hab.elim
  | tru =>
    intro b s' r r' hab h' hr hr' he
    cases b with
    | val j =>
      cases h' with
      | tru => simp at he; simp [he]
      | num q _ h => exact absurd he.symm (num_ne h (by simp [Numeric, IsDigit]))
      | _ => simp at he
    | _ => exact hab.elim
  | fals =>
    intro b s' r r' hab h' hr hr' he
    cases b with
    | val j =>
      cases h' with
      | fals => simp at he; simp [he]
      | num q _ h => exact absurd he.symm (num_ne h (by simp [Numeric, IsDigit]))
      | _ => simp at he
    | _ => exact hab.elim
  | str s t h =>
    intro b s' r r' hab h' hr hr' he
    cases b with
    | val j =>
      cases h' with
      | num q _ h => exact absurd he.symm (num_ne h (by simp [Numeric, IsDigit]))
      | str s1 t1 h1 =>
        simp only [List.cons_append, List.append_assoc, List.nil_append, List.cons.injEq, true_and] at he
        obtain ⟨rfl, rfl, rfl⟩ := body_unique h h1 he
        exact ⟨rfl, rfl, rfl⟩
      | _ => simp at he
    | _ => exact hab.elim
  | arr0 w hw =>
    intro b s' r r' hab h' hr hr' he
    cases b with
    | val j =>
      cases h' with
      | num q _ h => exact absurd he.symm (num_ne h (by simp [Numeric, IsDigit]))
      | arr0 w' hw' =>
        simp only [List.cons_append, List.append_assoc, List.nil_append, List.cons.injEq, true_and] at he
        obtain ⟨rfl, h2⟩ := split IsWs hw hw' (by simp [IsWs]) (by simp [IsWs]) he
        injection h2 with _ h2
        exact ⟨rfl, rfl, h2⟩
      | arr l s1 h1 =>
        simp only [List.cons_append, List.append_assoc, List.nil_append, List.cons.injEq, true_and] at he
        obtain ⟨v, c, t, rfl, hv, hc⟩ := elems_head h1
        exact absurd (close_unique hw hv (by simp [IsWs]) hc.1 he).symm hc.2.2.1
      | _ => simp at he
    | _ => exact hab.elim
  | obj0 w hw =>
    intro b s' r r' hab h' hr hr' he
    cases b with
    | val j =>
      cases h' with
      | num q _ h => exact absurd he.symm (num_ne h (by simp [Numeric, IsDigit]))
      | obj0 w' hw' =>
        simp only [List.cons_append, List.append_assoc, List.nil_append, List.cons.injEq, true_and] at he
        obtain ⟨rfl, h2⟩ := split IsWs hw hw' (by simp [IsWs]) (by simp [IsWs]) he
        injection h2 with _ h2
        exact ⟨rfl, rfl, h2⟩
      | obj l s1 h1 =>
        simp only [List.cons_append, List.append_assoc, List.nil_append, List.cons.injEq, true_and] at he
        obtain ⟨v, t, rfl, hv⟩ := mems_head h1
        exact absurd (close_unique hw hv (by simp [IsWs]) (by simp [IsWs]) he) (by decide)
      | _ => simp at he
    | _ => exact hab.elim
  | arr l s h ih =>
    intro b s' r r' hab h' hr hr' he
    cases b with
    | val j =>
      cases h' with
      | num q _ h => exact absurd he.symm (num_ne h (by simp [Numeric, IsDigit]))
      | arr0 w' hw' =>
        simp only [List.cons_append, List.append_assoc, List.nil_append, List.cons.injEq, true_and] at he
        obtain ⟨v, c, t, rfl, hv, hc⟩ := elems_head h
        exact absurd (close_unique hw' hv (by simp [IsWs]) hc.1 he.symm).symm hc.2.2.1
      | arr l' s1 h1 =>
        simp only [List.cons_append, List.append_assoc, List.nil_append, List.cons.injEq, true_and] at he
        obtain ⟨h2, rfl, h3⟩ := ih (b := .elems l') trivial h1 (by simp [Follow, Numeric, IsDigit, IsWs])
          (by simp [Follow, Numeric, IsDigit, IsWs]) he
        injection h2 with h2
        injection h3 with _ h3
        exact ⟨by rw [h2], rfl, h3⟩
      | _ => simp at he
    | _ => exact hab.elim
  | obj l s h ih =>
    intro b s' r r' hab h' hr hr' he
    cases b with
    | val j =>
      cases h' with
      | num q _ h => exact absurd he.symm (num_ne h (by simp [Numeric, IsDigit]))
      | obj0 w' hw' =>
        simp only [List.cons_append, List.append_assoc, List.nil_append, List.cons.injEq, true_and] at he
        obtain ⟨v, t, rfl, hv⟩ := mems_head h
        exact absurd (close_unique hw' hv (by simp [IsWs]) (by simp [IsWs]) he.symm) (by decide)
      | obj l' s1 h1 =>
        simp only [List.cons_append, List.append_assoc, List.nil_append, List.cons.injEq, true_and] at he
        obtain ⟨h2, rfl, h3⟩ := ih (b := .mems l') trivial h1 (by simp [Follow, Numeric, IsDigit, IsWs])
          (by simp [Follow, Numeric, IsDigit, IsWs]) he
        injection h2 with h2
        injection h3 with _ h3
        exact ⟨by rw [h2], rfl, h3⟩
      | _ => simp at he
    | _ => exact hab.elim
  | elem j v s w hv hw h ih =>
    intro b s' r r' hab h' hr hr' he
    cases b with
    | elem j' =>
      cases h' with
      | elem _ v' s1 w' hv' hw' h1 =>
        simp only [List.append_assoc] at he
        obtain ⟨c, t, hs, hc⟩ := val_head h
        obtain ⟨c', t', hs', hc'⟩ := val_head h1
        obtain ⟨rfl, h2⟩ := split IsWs hv hv' (by rw [hs]; simpa using hc.1) (by rw [hs']; simpa using hc'.1) he
        obtain ⟨h3, rfl, h4⟩ := ih (b := .val j') trivial h1 (follow_ws hw hr) (follow_ws hw' hr') h2
        injection h3 with h3
        obtain ⟨rfl, h5⟩ := split IsWs hw hw' (fun c hc => (hr c hc).2) (fun c hc => (hr' c hc).2) h4
        exact ⟨by rw [h3], rfl, h5⟩
    | _ => exact hab.elim
  | one j s h ih =>
    intro b s' r r' hab h' hr hr' he
    cases b with
    | elems l' =>
      have hf : ∀ x, Follow (.elems [j]) x → Follow (.elem j) x := fun x hx c hc => ⟨(hx c hc).1, (hx c hc).2.1⟩
      cases h' with
      | one j' _ h1 =>
        obtain ⟨h2, h3, h4⟩ := ih (b := .elem j') trivial h1 (hf _ hr) (hf _ hr') he
        injection h2 with h2
        exact ⟨by rw [h2], h3, h4⟩
      | more j' l' s1 t1 h1 h2 =>
        rw [List.append_assoc, List.cons_append] at he
        obtain ⟨-, -, h4⟩ := ih (b := .elem j') trivial h1 (hf _ hr) (by simpa [Follow] using comma) he
        exact absurd rfl (hr ',' (by rw [h4]; simp)).2.2
    | _ => exact hab.elim
  | more j l s t h hl ih ihl =>
    intro b s' r r' hab h' hr hr' he
    cases b with
    | elems l' =>
      have hf : ∀ x, Follow (.elems [j]) x → Follow (.elem j) x := fun x hx c hc => ⟨(hx c hc).1, (hx c hc).2.1⟩
      rw [List.append_assoc, List.cons_append] at he
      cases h' with
      | one j' _ h1 =>
        obtain ⟨-, -, h4⟩ := ih (b := .elem j') trivial h1 (by simpa [Follow] using comma) (hf _ hr') he
        exact absurd rfl (hr' ',' (by rw [← h4]; simp)).2.2
      | more j' l' s1 t1 h1 h2 =>
        rw [List.append_assoc, List.cons_append] at he
        obtain ⟨h3, rfl, h4⟩ := ih (b := .elem j') trivial h1 (by simpa [Follow] using comma)
          (by simpa [Follow] using comma) he
        injection h4 with _ h4
        injection h3 with h3
        obtain ⟨h5, rfl, h6⟩ := ihl (b := .elems l') trivial h2 hr hr' h4
        injection h5 with h5
        exact ⟨by rw [h3, h5], rfl, h6⟩
    | _ => exact hab.elim
  | mem k j v t w s hv hk hw h ih =>
    intro b s' r r' hab h' hr hr' he
    cases b with
    | mem k' j' =>
      cases h' with
      | mem _ _ v' t' w' s1 hv' hk' hw' h1 =>
        simp only [List.append_assoc, List.cons_append] at he
        obtain ⟨rfl, h2⟩ := split IsWs hv hv' (by simp [IsWs]) (by simp [IsWs]) he
        injection h2 with _ h2
        obtain ⟨rfl, rfl, h3⟩ := body_unique hk hk' h2
        obtain ⟨rfl, h4⟩ := split IsWs hw hw' (by simp [IsWs]) (by simp [IsWs]) h3
        injection h4 with _ h4
        obtain ⟨h5, rfl, h6⟩ := ih (b := .elem j') trivial h1 hr hr' h4
        injection h5 with h5
        exact ⟨by rw [h5], rfl, h6⟩
    | _ => exact hab.elim
  | one' k j s h ih =>
    intro b s' r r' hab h' hr hr' he
    cases b with
    | mems l' =>
      have hf : ∀ x, Follow (.mems [(k, j)]) x → Follow (.mem k j) x := fun x hx c hc => ⟨(hx c hc).1, (hx c hc).2.1⟩
      cases h' with
      | one' k' j' _ h1 =>
        obtain ⟨h2, h3, h4⟩ := ih (b := .mem k' j') trivial h1 (hf _ hr) (hf _ hr') he
        injection h2 with h2 h2'
        exact ⟨by rw [h2, h2'], h3, h4⟩
      | more' k' j' l' s1 t1 h1 h2 =>
        rw [List.append_assoc, List.cons_append] at he
        obtain ⟨-, -, h4⟩ := ih (b := .mem k' j') trivial h1 (hf _ hr) (by simpa [Follow] using comma) he
        exact absurd rfl (hr ',' (by rw [h4]; simp)).2.2
    | _ => exact hab.elim
  | more' k j l s t h hl ih ihl =>
    intro b s' r r' hab h' hr hr' he
    cases b with
    | mems l' =>
      have hf : ∀ x, Follow (.mems [(k, j)]) x → Follow (.mem k j) x := fun x hx c hc => ⟨(hx c hc).1, (hx c hc).2.1⟩
      rw [List.append_assoc, List.cons_append] at he
      cases h' with
      | one' k' j' _ h1 =>
        obtain ⟨-, -, h4⟩ := ih (b := .mem k' j') trivial h1 (by simpa [Follow] using comma) (hf _ hr') he
        exact absurd rfl (hr' ',' (by rw [← h4]; simp)).2.2
      | more' k' j' l' s1 t1 h1 h2 =>
        rw [List.append_assoc, List.cons_append] at he
        obtain ⟨h3, rfl, h4⟩ := ih (b := .mem k' j') trivial h1 (by simpa [Follow] using comma)
          (by simpa [Follow] using comma) he
        injection h4 with _ h4
        injection h3 with h3 h3'
        obtain ⟨h5, rfl, h6⟩ := ihl (b := .mems l') trivial h2 hr hr' h4
        injection h5 with h5
        exact ⟨by rw [h3, h3', h5], rfl, h6⟩
    | _ => exact hab.elim

/-- A text denotes at most one value. -/
theorem text_unique {j j' : J} {s : List Char} (h : Text j s) (h' : Text j' s) : j = j' := by
  obtain ⟨h1, -, -⟩ := der_unique h (b := .elem j') (r := []) (r' := []) trivial h' (by simp [Follow]) (by simp [Follow])
    rfl
  injection h1

/-! ### Quotation marks -/

theorem count_ws {w : List Char} (h : Ws w) : w.count '"' = 0 := by
  rw [List.count_eq_zero]
  intro hc
  have := h _ hc
  simp at this

theorem count_num {q : ℚ} {s : List Char} (h : Num q s) : s.count '"' = 0 := by
  rw [List.count_eq_zero]
  intro hc
  have := num_numeric h _ hc
  simp [Numeric, IsDigit] at this

theorem count_body {s t : List Char} (h : Body s t) : '\\' ∉ t → t.count '"' = 0 := by
  induction h with
  | nil => simp
  | plain c s t h32 hq hb h ih =>
    intro hn
    rw [List.count_cons_of_ne hq, ih (fun h => hn (by simp [h]))]
  | esc => intro hn; simp at hn
  | hex => intro hn; simp at hn

/-- Without backslashes the number of quotation marks is even. -/
theorem der_even {a : Sym} {s : List Char} (h : Der a s) : '\\' ∉ s → Even (s.count '"') := by
  induction h with
  | null => intro; decide
  | tru => intro; decide
  | fals => intro; decide
  | num q s h => intro _; rw [count_num h]; exact ⟨0, rfl⟩
  | str s t h =>
    intro hn
    have := count_body h (fun h => hn (by simp [h]))
    rw [List.count_cons_self, List.count_append, this]
    decide
  | arr0 w hw => intro _; rw [List.count_cons_of_ne (by decide), List.count_append, count_ws hw]; decide
  | obj0 w hw => intro _; rw [List.count_cons_of_ne (by decide), List.count_append, count_ws hw]; decide
  | arr l s h ih =>
    intro hn
    rw [List.count_cons_of_ne (by decide), List.count_append]
    exact (ih fun h => hn (by simp [h])).add (by decide)
  | obj l s h ih =>
    intro hn
    rw [List.count_cons_of_ne (by decide), List.count_append]
    exact (ih fun h => hn (by simp [h])).add (by decide)
  | elem j v s w hv hw h ih =>
    intro hn
    rw [List.count_append, List.count_append, count_ws hv, count_ws hw, Nat.zero_add]
    exact ih fun h => hn (by simp [h])
  | one j s h ih => exact ih
  | one' k j s h ih => exact ih
  | more j l s t h hl ih ihl =>
    intro hn
    rw [List.count_append, List.count_cons_of_ne (by decide)]
    exact (ih fun h => hn (by simp [h])).add (ihl fun h => hn (by simp [h]))
  | more' k j l s t h hl ih ihl =>
    intro hn
    rw [List.count_append, List.count_cons_of_ne (by decide)]
    exact (ih fun h => hn (by simp [h])).add (ihl fun h => hn (by simp [h]))
  | mem k j v t w s hv hk hw h ih =>
    intro hn
    have h1 := count_body hk (fun h => hn (by simp [h]))
    have h2 := ih (fun h => hn (by simp [h]))
    rw [List.count_append, count_ws hv, List.count_cons_self, List.count_append, h1, List.count_cons_self,
      List.count_append, count_ws hw, List.count_cons_of_ne (by decide)]
    obtain ⟨m, hm⟩ := h2
    exact ⟨m + 1, by omega⟩

end Json
end Verif

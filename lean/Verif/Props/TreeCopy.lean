import Verif.Model.TreeCopy

/-!
# C133: copies of AABB trees

The trees of values `Tree` and the relation `Rep` between them and the memory are independent of the functions of the
model.
-/
namespace Verif
namespace TreeMem

/-- What a tree is for its users. -/
inductive Tree (β : Type) where
  | leaf (v : β)
  | node (v : β) (cs : List (Tree β))

variable {β : Type}

mutual
/-- Object `o` is the root of tree `t` in memory `m`. -/
def Rep (m : Nat → Option (Obj β)) (o : Obj β) : Tree β → Prop
  | .leaf v => o.val = v ∧ o.n = -1
  | .node v cs => o.val = v ∧ o.n = cs.length ∧ RepL m o.ch 0 cs
/-- The pointers from position `i` on lead to the trees of the list. -/
def RepL (m : Nat → Option (Obj β)) (ch : Nat → Option Nat) (i : Nat) : List (Tree β) → Prop
  | [] => True
  | t :: l => (∃ a c, ch i = some a ∧ m a = some c ∧ Rep m c t) ∧ RepL m ch (i + 1) l
end

/-- There is a path from the root to a leaf on which every node passes the test. -/
inductive Touches (p : β → Bool) : Tree β → Prop
  | leaf (v : β) : p v = true → Touches p (.leaf v)
  | node (v : β) (cs : List (Tree β)) (t : Tree β) : p v = true → t ∈ cs → Touches p t → Touches p (.node v cs)

mutual
theorem Rep.mono {m m' : Nat → Option (Obj β)} (h : ∀ a c, m a = some c → m' a = some c) :
    ∀ (t : Tree β) (o : Obj β), Rep m o t → Rep m' o t
  | .leaf _, _, r => r
  | .node _ cs, o, r => ⟨r.1, r.2.1, RepL.mono h cs o.ch 0 r.2.2⟩
theorem RepL.mono {m m' : Nat → Option (Obj β)} (h : ∀ a c, m a = some c → m' a = some c) :
    ∀ (l : List (Tree β)) (ch : Nat → Option Nat) (i : Nat), RepL m ch i l → RepL m' ch i l
  | [], _, _, _ => trivial
  | t :: l, ch, i, r => by
    obtain ⟨⟨a, c, e, ha, hc⟩, hl⟩ := r
    exact ⟨⟨a, c, e, h a c ha, Rep.mono h t c hc⟩, RepL.mono h l ch (i + 1) hl⟩
end

/-- The part of the memory with the addresses in `s`. -/
def only (s : Nat → Prop) [DecidablePred s] (m : Nat → Option (Obj β)) : Nat → Option (Obj β) :=
  fun a => if s a then m a else none

/-- Appending a tree at the end of a list. -/
theorem RepL.snoc {m : Nat → Option (Obj β)} {t : Tree β} :
    ∀ (l : List (Tree β)) (ch : Nat → Option Nat) (i : Nat), RepL m ch i l →
      (∃ a c, ch (i + l.length) = some a ∧ m a = some c ∧ Rep m c t) → RepL m ch i (l ++ [t])
  | [], _, _, _, h => ⟨by simpa using h, trivial⟩
  | _ :: l, ch, i, r, h => ⟨r.1, RepL.snoc l ch (i + 1) r.2 (by
      have e : i + 1 + l.length = i + (l.length + 1) := by omega
      rw [e]; simpa using h)⟩

theorem RepL.congr {m : Nat → Option (Obj β)} :
    ∀ (l : List (Tree β)) (ch ch' : Nat → Option Nat) (i : Nat), (∀ j, i ≤ j → j < i + l.length → ch j = ch' j) →
      RepL m ch i l → RepL m ch' i l
  | [], _, _, _, _, _ => trivial
  | _ :: l, ch, ch', i, h, r => by
    obtain ⟨⟨a, c, e, ha, hc⟩, hl⟩ := r
    refine ⟨⟨a, c, ?_, ha, hc⟩, RepL.congr l ch ch' (i + 1) ?_ hl⟩
    · rw [← h i (Nat.le_refl _) (by simp), e]
    · intro j h1 h2
      exact h j (by omega) (by simp only [List.length_cons]; omega)

/-- What a copy of `o` has to be: the new object is a tree of the new addresses alone, and the old memory is as
before. -/
structure Copied (h : Heap β) (t : Tree β) (h' : Heap β) (o' : Obj β) : Prop where
  next : h.next ≤ h'.next
  bound : ∀ a, h'.next ≤ a → h'.mem a = none
  old : ∀ a, a < h.next → h'.mem a = h.mem a
  rep : Rep (only (fun a => h.next ≤ a) h'.mem) o' t

/-- The copy constructor returns for every bound at least `f`. -/
def Good (t : Tree β) : Prop :=
  ∃ f, ∀ g, f ≤ g → ∀ (h : Heap β) (o : Obj β), (∀ a, h.next ≤ a → h.mem a = none) → Rep h.mem o t →
    ∃ h' o', copy g h o = .done (h', o') ∧ Copied h t h' o'

theorem old_mono {h h' : Heap β} (bound : ∀ a, h.next ≤ a → h.mem a = none)
    (old : ∀ a, a < h.next → h'.mem a = h.mem a) : ∀ a c, h.mem a = some c → h'.mem a = some c := by
  intro a c e
  rcases Nat.lt_or_ge a h.next with l | l
  · rw [old a l, e]
  · rw [bound a l] at e; cases e

theorem only_mono {s s' : Nat → Prop} [DecidablePred s] [DecidablePred s'] {m m' : Nat → Option (Obj β)}
    (hs : ∀ a, s a → s' a) (hm : ∀ a c, s a → m a = some c → m' a = some c) :
    ∀ a c, only s m a = some c → only s' m' a = some c := by
  intro a c e
  unfold only at e ⊢
  split at e
  · next l => rw [if_pos (hs a l), hm a c l e]
  · cases e

theorem copyLoop_spec {other : Obj β} {h₀ : Nat} {g : Nat} :
    ∀ (l : List (Tree β)) (pre : List (Tree β)) (h : Heap β) (o : Obj β),
      (∀ t ∈ l, ∀ (h : Heap β) (o : Obj β), (∀ a, h.next ≤ a → h.mem a = none) → Rep h.mem o t →
        ∃ h' o', copy g h o = .done (h', o') ∧ Copied h t h' o') →
      h₀ ≤ h.next → (∀ a, h.next ≤ a → h.mem a = none) → RepL h.mem other.ch pre.length l →
      RepL (only (fun a => h₀ ≤ a) h.mem) o.ch 0 pre →
      ∃ h' o', copyLoop (copy g) other l.length pre.length h o = .done (h', o') ∧
        o'.val = o.val ∧ o'.n = o.n ∧ h.next ≤ h'.next ∧ (∀ a, h'.next ≤ a → h'.mem a = none) ∧
        (∀ a, a < h.next → h'.mem a = h.mem a) ∧
        RepL (only (fun a => h₀ ≤ a) h'.mem) o'.ch 0 (pre ++ l)
  | [], pre, h, o, _, _, hb, _, hp =>
    ⟨h, o, rfl, rfl, rfl, Nat.le_refl _, hb, fun _ _ => rfl, by simpa using hp⟩
  | t :: l, pre, h, o, good, hle, hb, hr, hp => by
    obtain ⟨⟨a, c, e, ha, hc⟩, hl⟩ := hr
    obtain ⟨h1, o1, e1, cp⟩ := good t (by simp) h c hb hc
    -- the memory after the allocation
    let h2 : Heap β := (h1.alloc o1).1
    let o2 : Obj β := { o with ch := fun j => if j = pre.length then some h1.next else o.ch j }
    have m12 : ∀ a c, h1.mem a = some c → h2.mem a = some c := by
      intro a c e
      change (if a = h1.next then some o1 else h1.mem a) = some c
      rw [if_neg, e]
      rintro rfl
      rw [cp.bound _ (Nat.le_refl _)] at e; cases e
    have m01 := old_mono hb cp.old
    have hn2 : h2.next = h1.next + 1 := rfl
    have hb2 : ∀ a, h2.next ≤ a → h2.mem a = none := by
      intro a l
      change (if a = h1.next then some o1 else h1.mem a) = none
      rw [if_neg (by omega)]
      exact cp.bound a (by omega)
    have hold : ∀ a, a < h.next → h2.mem a = h.mem a := by
      intro a l
      change (if a = h1.next then some o1 else h1.mem a) = h.mem a
      have := cp.next
      rw [if_neg (by omega), cp.old a l]
    have hpre : RepL (only (fun a => h₀ ≤ a) h2.mem) o2.ch 0 (pre ++ [t]) := by
      refine RepL.snoc pre o2.ch 0 ?_ ⟨h1.next, o1, ?_, ?_, ?_⟩
      · refine RepL.congr pre o.ch o2.ch 0 ?_ (RepL.mono ?_ pre o.ch 0 hp)
        · intro j _ h2
          change o.ch j = if j = pre.length then some h1.next else o.ch j
          rw [if_neg (by omega)]
        · exact only_mono (fun _ h => h) fun a c _ e => m12 a c (m01 a c e)
      · simp [o2]
      · unfold only
        have := cp.next
        rw [if_pos (by omega)]
        change (if h1.next = h1.next then some o1 else h1.mem h1.next) = some o1
        rw [if_pos rfl]
      · exact Rep.mono (only_mono (fun _ h => Nat.le_trans hle h) fun a c _ e => m12 a c e) t o1 cp.rep
    have hl2 : RepL h2.mem other.ch (pre ++ [t]).length l := by
      have := RepL.mono (fun a c e => m12 a c (m01 a c e)) l other.ch _ hl
      simpa using this
    obtain ⟨h', o', e', v', n', x', b', k', r'⟩ := copyLoop_spec l (pre ++ [t]) h2 o2
      (fun t ht => good t (List.mem_cons_of_mem _ ht)) (by have := cp.next; omega) hb2 hl2 hpre
    refine ⟨h', o', ?_, v', n', by have := cp.next; omega, b', ?_, by simpa using r'⟩
    · simp only [List.length_cons, copyLoop, deref, e, ha, Res.bind_done, e1]
      rw [List.length_append] at e'
      exact e'
    · intro a l
      have := cp.next
      rw [k' a (by omega), hold a l]

mutual
theorem good : ∀ t : Tree β, Good t
  | .leaf v => ⟨1, fun g hg h o hb r => by
      obtain ⟨g, rfl⟩ : ∃ k, g = k + 1 := ⟨g - 1, by omega⟩
      refine ⟨h, ⟨o.val, o.n, fun _ => none⟩, ?_, Nat.le_refl _, hb, fun _ _ => rfl, r.1, r.2⟩
      simp [copy, r.2, copyLoop]⟩
  | .node v cs => by
    obtain ⟨f, hf⟩ := goodL cs
    refine ⟨f + 1, fun g hg h o hb r => ?_⟩
    obtain ⟨g, rfl⟩ : ∃ k, g = k + 1 := ⟨g - 1, by omega⟩
    obtain ⟨h', o', e, v', n', x, b', k, r'⟩ := copyLoop_spec (other := o) (h₀ := h.next) (g := g) cs [] h
      ⟨o.val, o.n, fun _ => none⟩ (fun t ht => hf t ht g (by omega)) (Nat.le_refl _) hb r.2.2 trivial
    refine ⟨h', o', ?_, x, b', k, by rw [v']; exact r.1, by rw [n']; exact r.2.1, r'⟩
    have : o.n.toNat = cs.length := by rw [r.2.1]; simp
    simp only [copy, this]
    exact e
theorem goodL : ∀ l : List (Tree β), ∃ f, ∀ t ∈ l, ∀ g, f ≤ g → ∀ (h : Heap β) (o : Obj β),
    (∀ a, h.next ≤ a → h.mem a = none) → Rep h.mem o t →
      ∃ h' o', copy g h o = .done (h', o') ∧ Copied h t h' o'
  | [] => ⟨0, by simp⟩
  | t :: l => by
    obtain ⟨f, hf⟩ := good t
    obtain ⟨f', hf'⟩ := goodL l
    refine ⟨max f f', fun u hu g hg => ?_⟩
    rcases List.mem_cons.1 hu with rfl | hu
    · exact hf g (by omega)
    · exact hf' u hu g (by omega)
end

theorem only_le {s : Nat → Prop} [DecidablePred s] {m m' : Nat → Option (Obj β)} (h : ∀ a, s a → m' a = m a) :
    ∀ a c, only s m a = some c → m' a = some c := by
  intro a c e
  unfold only at e
  split at e
  · next l => rw [h a l, e]
  · cases e

theorem copyLoop_mono {cp cp' : Heap β → Obj β → Res (Heap β × Obj β)} (other : Obj β)
    (hc : ∀ h o r, cp h o = .done r → cp' h o = .done r) :
    ∀ (k i : Nat) (h : Heap β) (o : Obj β) (r : Heap β × Obj β), copyLoop cp other k i h o = .done r →
      copyLoop cp' other k i h o = .done r
  | 0, _, _, _, _, e => e
  | k + 1, i, h, o, r, e => by
    simp only [copyLoop] at e ⊢
    cases hd : deref h.mem (other.ch i) with
    | done c =>
      rw [hd] at e
      simp only [Res.bind_done] at e ⊢
      cases hx : cp h c with
      | done x =>
        rw [hx] at e
        rw [hc _ _ _ hx]
        exact copyLoop_mono other hc k (i + 1) _ _ r e
      | ub => rw [hx] at e; cases e
      | timeout => rw [hx] at e; cases e
    | ub => rw [hd] at e; cases e
    | timeout => rw [hd] at e; cases e

theorem copy_mono : ∀ (f g : Nat), f ≤ g → ∀ (h : Heap β) (o : Obj β) (r : Heap β × Obj β),
    copy f h o = .done r → copy g h o = .done r
  | 0, _, _, _, _, _, e => by cases e
  | f + 1, g, hg, h, o, r, e => by
    obtain ⟨g, rfl⟩ : ∃ k, g = k + 1 := ⟨g - 1, by omega⟩
    exact copyLoop_mono o (copy_mono f g (by omega)) _ _ _ _ r e

/-- **C133.** Copying a tree returns. The copy is the same tree, also when the memory of the original is changed
or released afterwards; the original is the same tree, also when the memory of the copy is changed or released
afterwards. -/
theorem C133_copy (h : Heap β) (o : Obj β) (t : Tree β) (hb : ∀ a, h.next ≤ a → h.mem a = none)
    (r : Rep h.mem o t) :
    ∃ h' o', Returns (fun f => copy f h o) (h', o') ∧
      (∀ m : Nat → Option (Obj β), (∀ a, h.next ≤ a → m a = h'.mem a) → Rep m o' t) ∧
      (∀ m : Nat → Option (Obj β), (∀ a, a < h.next → m a = h'.mem a) → Rep m o t) := by
  obtain ⟨f, hf⟩ := good t
  obtain ⟨h', o', e, cp⟩ := hf f (Nat.le_refl _) h o hb r
  refine ⟨h', o', ⟨f, fun g hg => ?_⟩, fun m hm => Rep.mono (only_le hm) t o' cp.rep, fun m hm => ?_⟩
  · -- a larger bound gives the same result
    exact copy_mono f g hg h o _ e
  · refine Rep.mono (fun a c e => ?_) t o r
    rcases Nat.lt_or_ge a h.next with l | l
    · rw [hm a l, cp.old a l, e]
    · rw [hb a l] at e; cases e

theorem hitsLoop_spec {p : β → Bool} {m : Nat → Option (Obj β)} {o : Obj β} {f : Nat} :
    ∀ (l : List (Tree β)) (i : Nat), RepL m o.ch i l →
      (∀ t ∈ l, ∀ c, Rep m c t → ∃ b, hits p m f c = .done b ∧ (b = true ↔ Touches p t)) →
      ∃ b, hitsLoop (hits p m f) m o l.length i = .done b ∧ (b = true ↔ ∃ t ∈ l, Touches p t)
  | [], _, _, _ => ⟨false, rfl, by simp⟩
  | t :: l, i, r, ih => by
    obtain ⟨⟨a, c, e, ha, hc⟩, hl⟩ := r
    obtain ⟨b, eb, hb⟩ := ih t (by simp) c hc
    simp only [List.length_cons, hitsLoop, deref, e, ha, Res.bind_done, eb]
    cases b with
    | true => exact ⟨true, rfl, by simp [hb.1 rfl]⟩
    | false =>
      obtain ⟨b', e', hb'⟩ := hitsLoop_spec l (i + 1) hl fun t ht => ih t (List.mem_cons_of_mem _ ht)
      refine ⟨b', by simpa using e', ?_⟩
      rw [hb']
      have : ¬ Touches p t := fun h => by cases hb.2 h
      simp [this]

mutual
theorem hits_spec (p : β → Bool) (m : Nat → Option (Obj β)) : ∀ t : Tree β, ∃ f, ∀ g, f ≤ g → ∀ o, Rep m o t →
    ∃ b, hits p m g o = .done b ∧ (b = true ↔ Touches p t)
  | .leaf v => ⟨1, fun g hg o r => by
      obtain ⟨g, rfl⟩ : ∃ k, g = k + 1 := ⟨g - 1, by omega⟩
      obtain ⟨rv, rn⟩ := r
      cases hp : p v with
      | false =>
        refine ⟨false, by simp [hits, rv, hp], by simp, fun h => ?_⟩
        cases h with
        | leaf _ h => rw [hp] at h; cases h
      | true => exact ⟨true, by simp [hits, rv, hp, rn], fun _ => .leaf v hp, fun _ => rfl⟩⟩
  | .node v cs => by
    obtain ⟨f, hf⟩ := hits_specL p m cs
    refine ⟨f + 1, fun g hg o r => ?_⟩
    obtain ⟨g, rfl⟩ : ∃ k, g = k + 1 := ⟨g - 1, by omega⟩
    obtain ⟨rv, rn, rl⟩ := r
    cases hp : p v with
    | false =>
      refine ⟨false, by simp [hits, rv, hp], by simp, fun h => ?_⟩
      cases h with
      | node _ _ _ h _ _ => rw [hp] at h; cases h
    | true =>
      obtain ⟨b, e, hb⟩ := hitsLoop_spec cs 0 rl fun t ht c hc => hf t ht g (by omega) c hc
      have n1 : ¬ o.n = -1 := by rw [rn]; omega
      have n2 : o.n.toNat = cs.length := by rw [rn]; simp
      refine ⟨b, by simp only [hits, rv, hp, n1, n2]; simpa using e, ?_⟩
      rw [hb]
      constructor
      · rintro ⟨t, ht, h⟩
        exact .node v cs t hp ht h
      · intro h
        cases h with
        | node _ _ t _ ht h => exact ⟨t, ht, h⟩
theorem hits_specL (p : β → Bool) (m : Nat → Option (Obj β)) : ∀ l : List (Tree β), ∃ f, ∀ t ∈ l, ∀ g, f ≤ g →
    ∀ o, Rep m o t → ∃ b, hits p m g o = .done b ∧ (b = true ↔ Touches p t)
  | [] => ⟨0, by simp⟩
  | t :: l => by
    obtain ⟨f, hf⟩ := hits_spec p m t
    obtain ⟨f', hf'⟩ := hits_specL p m l
    refine ⟨max f f', fun u hu g hg => ?_⟩
    rcases List.mem_cons.1 hu with rfl | hu
    · exact hf g (by omega)
    · exact hf' u hu g (by omega)
end

theorem returns_of {f : Nat → Res Bool} {P : Prop}
    (h : ∃ n, ∀ g, n ≤ g → ∃ b, f g = .done b ∧ (b = true ↔ P)) : ∃ b, Returns f b ∧ (b = true ↔ P) := by
  obtain ⟨n, h⟩ := h
  obtain ⟨b, e, hb⟩ := h n (Nat.le_refl _)
  refine ⟨b, ⟨n, fun g hg => ?_⟩, hb⟩
  obtain ⟨b', e', hb'⟩ := h g hg
  have : b' = b := by
    rw [Bool.eq_iff_iff, hb, hb']
  rw [e', this]

/-- **C133.** The query of a tree returns, and says whether a path of intersecting boxes leads to a leaf. -/
theorem C133_query (p : β → Bool) (m : Nat → Option (Obj β)) (o : Obj β) (t : Tree β) (r : Rep m o t) :
    ∃ b, Returns (fun f => hits p m f o) b ∧ (b = true ↔ Touches p t) := by
  obtain ⟨f, hf⟩ := hits_spec p m t
  exact returns_of ⟨f, fun g hg => hf g hg o r⟩

/-- **C133.** A copy answers every query as the original did, even after the original has been released. -/
theorem C133_answers (p : β → Bool) (h : Heap β) (o : Obj β) (t : Tree β) (hb : ∀ a, h.next ≤ a → h.mem a = none)
    (r : Rep h.mem o t) (b : Bool) (q : Returns (fun f => hits p h.mem f o) b) :
    ∃ h' o', Returns (fun f => copy f h o) (h', o') ∧
      Returns (fun f => hits p (fun a => if a < h.next then none else h'.mem a) f o') b := by
  obtain ⟨h', o', e, r', _⟩ := C133_copy h o t hb r
  refine ⟨h', o', e, ?_⟩
  obtain ⟨b1, q1, i1⟩ := C133_query p h.mem o t r
  obtain ⟨b2, q2, i2⟩ := C133_query p (fun a => if a < h.next then none else h'.mem a) o' t
    (r' _ fun a ha => by rw [if_neg (by omega)])
  have e1 := q.unique q1
  have : b = b2 := by rw [e1, Bool.eq_iff_iff, i1, i2]
  rw [this]; exact q2

/-- A root with two leaves. -/
def sample : Heap Nat :=
  ⟨2, fun a => match a with
    | 0 => some ⟨10, -1, fun _ => none⟩
    | 1 => some ⟨20, -1, fun _ => none⟩
    | _ => none⟩

def sampleRoot : Obj Nat := ⟨0, 2, fun i => match i with | 0 => some 0 | 1 => some 1 | _ => none⟩

theorem sample_bound : ∀ a, sample.next ≤ a → sample.mem a = none := by
  intro a h
  match a, h with
  | a + 2, _ => rfl

theorem sample_rep : Rep sample.mem sampleRoot (.node 0 [.leaf 10, .leaf 20]) :=
  ⟨rfl, rfl, ⟨0, _, rfl, rfl, rfl, rfl⟩, ⟨1, _, rfl, rfl, rfl, rfl⟩, trivial⟩

/-- The hypotheses of C133 are met by a root with two leaves, and the copy refers to new addresses. -/
example : ∃ h' o', Returns (fun f => copy f sample sampleRoot) (h', o') ∧
    Returns (fun f => hits (fun v => v != 10) (fun a => if a < 2 then none else h'.mem a) f o') true :=
  C133_answers _ sample sampleRoot _ sample_bound sample_rep true
    ⟨2, fun m hm => by
      obtain ⟨m, rfl⟩ : ∃ k, m = k + 2 := ⟨m - 2, by omega⟩
      rfl⟩

/-- **C133, violated.** The move constructor exchanges members that were never given a value. Every move of a tree
into a new object is undefined; the maker of the accurate grid checkers does this for every partition. -/
theorem C133_move_violated (o : Obj β) : moveCtor o = .ub := rfl

/-- **C133 (part).** A move between two existing trees exchanges them. What is missing is the move into a new
object. -/
theorem C133_assign_partial (m : Nat → Option (Obj β)) (a b : Obj β) (s t : Tree β) (hs : Rep m a s)
    (ht : Rep m b t) :
    ∃ a' b' : Obj β, moveAssign a b = .done (a'.raw, b'.raw) ∧ Rep m a' t ∧ Rep m b' s :=
  ⟨b, a, rfl, ht, hs⟩

example : ∃ a' b' : Obj Nat, moveAssign sampleRoot ⟨7, -1, fun _ => none⟩ = .done (a'.raw, b'.raw) ∧
    Rep sample.mem a' (.leaf 7) ∧ Rep sample.mem b' (.node 0 [.leaf 10, .leaf 20]) :=
  C133_assign_partial sample.mem _ _ _ _ sample_rep ⟨rfl, rfl⟩

end TreeMem
end Verif

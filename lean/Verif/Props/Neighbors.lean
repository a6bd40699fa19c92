import Verif.Props.Edge

/-!
# Neighbour repair (C51)
-/
namespace Verif
namespace DC
open Work

/-- Candidate `c` is offered by the face index for facet `e` of simplex `x` and is accepted. -/
def Offer (D : Nat) (hash : Nat → BitVec 32) (T : Tri) (get : BitVec 32 → List Nat) (x e c : Nat) : Prop :=
  c ∈ get (faceKey hash (T.vs x) e) ∧ accept D T x e c = true

/-- Facet `e` of simplex `x` has to be repaired. -/
def Broken (D : Nat) (T : Tri) (x e : Nat) : Prop := needsUpdate D T x ((T.ns x).getD e 0) = true

/-- The simplices that are processed: the given ones and those found to be neighbours. -/
inductive Proc (D : Nat) (hash : Nat → BitVec 32) (T : Tri) (get : BitVec 32 → List Nat)
    (toCheck : List Nat) : Nat → Prop
  | start (x : Nat) (hx : x ∈ toCheck) : Proc D hash T get toCheck x
  | next (x e c : Nat) (hx : Proc D hash T get toCheck x) (he : e < D + 1) (hb : Broken D T x e)
      (hc : Offer D hash T get x e c) : Proc D hash T get toCheck c

variable {D : Nat} {hash : Nat → BitVec 32} {T : Tri} {get : BitVec 32 → List Nat} {toCheck : List Nat}

theorem accept_iff {x e c : Nat} : accept D T x e c = true ↔
    c ≠ T.id x ∧ c ≠ sINF ∧ T.contains c = true ∧ Simplex.shared (T.vs x) (T.vs c) = D ∧
      Simplex.containsVs ((T.vs x).getD e 0) (T.vs c) = false := by
  simp only [accept, Bool.and_eq_true, decide_eq_true_eq, beq_iff_eq, Bool.not_eq_true']
  tauto

theorem needsUpdate_iff {x n : Nat} : needsUpdate D T x n = true ↔
    n = sINF ∨ T.contains n = false ∨ Simplex.shared (T.vs x) (T.vs n) ≠ D := by
  simp [needsUpdate]

theorem not_needsUpdate_of_accept {x e c : Nat} (h : accept D T x e c = true) :
    needsUpdate D T x c = false := by
  rw [accept_iff] at h
  rw [← Bool.not_eq_true, needsUpdate_iff]
  simp [h.2.1, h.2.2.1, h.2.2.2.1]

theorem needsUpdate_inf {x : Nat} : needsUpdate D T x sINF = true := by
  rw [needsUpdate_iff]; exact Or.inl rfl

namespace Nb

/-- The simplex a body is still going to check. -/
def hnd : NbL → Option Nat
  | .chk x => some x
  | .setDone x => some x
  | .feed _ _ c _ => some c
  | _ => none

/-- The body is going to visit or reset facet `e` of `x`. -/
def willS (x e : Nat) : NbL → Prop
  | .slot y j => y = x ∧ j ≤ e
  | .reset y j => y = x ∧ j ≤ e
  | .cand y j _ => y = x ∧ j < e
  | .wr y j _ _ => y = x ∧ j < e
  | .rd y j _ _ => y = x ∧ j < e
  | .setq y j _ _ => y = x ∧ j < e
  | .feed y j _ _ => y = x ∧ j < e
  | _ => False

/-- The body is in the candidate loop of facet `e` of `x`. -/
def inLoop (x e : Nat) : NbL → Prop
  | .cand y j _ => y = x ∧ j = e
  | .wr y j _ _ => y = x ∧ j = e
  | .rd y j _ _ => y = x ∧ j = e
  | .setq y j _ _ => y = x ∧ j = e
  | .feed y j _ _ => y = x ∧ j = e
  | _ => False

/-- The body is in the candidate loop of facet `e` of `x` and has not written the entry yet. -/
def unwritten (D : Nat) (hash : Nat → BitVec 32) (T : Tri) (get : BitVec 32 → List Nat) (x e : Nat) : NbL → Prop
  | .cand y j cs => y = x ∧ j = e ∧ ∀ c, Offer D hash T get x e c → c ∈ cs
  | .wr y j _ _ => y = x ∧ j = e
  | _ => False

/-- Candidates not yet processed by the body. -/
def rest : NbL → List Nat
  | .cand _ _ cs => cs
  | .wr _ _ c cs => c :: cs
  | .rd _ _ c cs => c :: cs
  | .setq _ _ c cs => c :: cs
  | .feed _ _ _ cs => cs
  | _ => []

def HasH (act : Multiset NbL) (x : Nat) : Prop := ∃ l ∈ act, hnd l = some x
def HasS (act : Multiset NbL) (x e : Nat) : Prop := ∃ l ∈ act, willS x e l
def HasW (act : Multiset NbL) (x e : Nat) : Prop := ∃ l ∈ act, inLoop x e l
def HasU (D : Nat) (hash : Nat → BitVec 32) (T : Tri) (get : BitVec 32 → List Nat) (act : Multiset NbL)
    (x e : Nat) : Prop := ∃ l ∈ act, unwritten D hash T get x e l

theorem hasH_cons (l : NbL) (act : Multiset NbL) (x : Nat) :
    HasH (l ::ₘ act) x ↔ hnd l = some x ∨ HasH act x := exists_mem_cons ..
theorem hasS_cons (l : NbL) (act : Multiset NbL) (x e : Nat) :
    HasS (l ::ₘ act) x e ↔ willS x e l ∨ HasS act x e := exists_mem_cons ..
theorem hasW_cons (l : NbL) (act : Multiset NbL) (x e : Nat) :
    HasW (l ::ₘ act) x e ↔ inLoop x e l ∨ HasW act x e := exists_mem_cons ..
theorem hasU_cons (l : NbL) (act : Multiset NbL) (x e : Nat) :
    HasU D hash T get (l ::ₘ act) x e ↔ unwritten D hash T get x e l ∨ HasU D hash T get act x e :=
  exists_mem_cons ..

/-- All accepted candidates of the facet are queued. -/
def AllMarked (D : Nat) (hash : Nat → BitVec 32) (T : Tri) (get : BitVec 32 → List Nat) (q : Nat)
    (mks : Nat → Nat) (x e : Nat) : Prop := ∀ c, Offer D hash T get x e c → q ≤ mks c

/-- Current entry of facet `e` of `x`. -/
def ent (ns : Nat → List Nat) (x e : Nat) : Nat := (ns x).getD e 0

/-- The entry of facet `e` is going to be correct. -/
def Entry (D : Nat) (hash : Nat → BitVec 32) (T : Tri) (get : BitVec 32 → List Nat) (act : Multiset NbL)
    (ns : Nat → List Nat) (x e : Nat) : Prop :=
  HasS act x e ∨ HasU D hash T get act x e ∨ Offer D hash T get x e (ent ns x e) ∨
    (ent ns x e = sINF ∧ ∀ c, ¬ Offer D hash T get x e c)

/-- The candidates of facet `e` are going to be queued. -/
def Queued (D : Nat) (hash : Nat → BitVec 32) (T : Tri) (get : BitVec 32 → List Nat) (q : Nat) (act : Multiset NbL)
    (mks : Nat → Nat) (x e : Nat) : Prop :=
  HasS act x e ∨ HasW act x e ∨ AllMarked D hash T get q mks x e

def Handled (D : Nat) (hash : Nat → BitVec 32) (T : Tri) (get : BitVec 32 → List Nat) (q : Nat)
    (act : Multiset NbL) (sh : NbSt) (x : Nat) : Prop :=
  ∀ e < D + 1, Broken D T x e → Entry D hash T get act sh.ns x e ∧ Queued D hash T get q act sh.mks x e

/-- Bodies that may occur. -/
def OkL (D : Nat) (hash : Nat → BitVec 32) (T : Tri) (get : BitVec 32 → List Nat) (toCheck : List Nat) :
    NbL → Prop
  | .chk x => Proc D hash T get toCheck x
  | .setDone x => Proc D hash T get toCheck x
  | .slot x _ => Proc D hash T get toCheck x
  | .reset x e => Proc D hash T get toCheck x ∧ e < D + 1 ∧ Broken D T x e
  | .cand x e cs => Proc D hash T get toCheck x ∧ (e < D + 1 ∧ Broken D T x e) ∧
      ∀ c ∈ cs, c ∈ get (faceKey hash (T.vs x) e)
  | .wr x e c cs => Proc D hash T get toCheck x ∧ (e < D + 1 ∧ Broken D T x e) ∧
      Offer D hash T get x e c ∧ ∀ c ∈ cs, c ∈ get (faceKey hash (T.vs x) e)
  | .rd x e c cs => Proc D hash T get toCheck x ∧ (e < D + 1 ∧ Broken D T x e) ∧
      Offer D hash T get x e c ∧ ∀ c ∈ cs, c ∈ get (faceKey hash (T.vs x) e)
  | .setq x e c cs => Proc D hash T get toCheck x ∧ (e < D + 1 ∧ Broken D T x e) ∧
      Offer D hash T get x e c ∧ ∀ c ∈ cs, c ∈ get (faceKey hash (T.vs x) e)
  | .feed x e c cs => Proc D hash T get toCheck x ∧ (e < D + 1 ∧ Broken D T x e) ∧
      Offer D hash T get x e c ∧ ∀ c ∈ cs, c ∈ get (faceKey hash (T.vs x) e)

/-- Soundness invariant. -/
structure Sound (D : Nat) (hash : Nat → BitVec 32) (T : Tri) (get : BitVec 32 → List Nat) (toCheck : List Nat)
    (c : Cfg NbSt NbL Nat) : Prop where
  queue : ∀ x ∈ c.queue, Proc D hash T get toCheck x
  act : ∀ l ∈ c.act, OkL D hash T get toCheck l
  len : ∀ x, (c.sh.ns x).length = (T.ns x).length
  val : ∀ x e, Broken D T x e → ent c.sh.ns x e = ent T.ns x e ∨ ent c.sh.ns x e = sINF ∨
    Offer D hash T get x e (ent c.sh.ns x e)
  keep : ∀ x e, ¬ (Proc D hash T get toCheck x ∧ e < D + 1 ∧ Broken D T x e) →
    ent c.sh.ns x e = ent T.ns x e
  loop : ∀ x e, HasW c.act x e → ent c.sh.ns x e = sINF ∨ Offer D hash T get x e (ent c.sh.ns x e)

theorem ent_set {ns : Nat → List Nat} {x e v y j : Nat} (h : e < (ns x).length) :
    ent (Function.update ns x ((ns x).set e v)) y j = if y = x ∧ j = e then v else ent ns y j := by
  unfold ent
  by_cases hy : y = x
  · subst hy
    rw [Function.update_self, List.getD_eq_getElem?_getD, List.getD_eq_getElem?_getD, List.getElem?_set]
    by_cases hj : e = j
    · subst hj; simp [h]
    · simp [hj, Ne.symm hj]
  · simp [Function.update_of_ne hy, hy]

theorem sound_step (hlen : ∀ x, Proc D hash T get toCheck x → (T.ns x).length = D + 1)
    (q d : Nat) {sh sh' : NbSt} {Q : Multiset Nat} {l : NbL}
    {act : Multiset NbL} {l' : Option NbL} {fed : List Nat}
    (h : nbStep D hash T get q d l sh = some (sh', l', fed))
    (hs : Sound D hash T get toCheck ⟨sh, Q, l ::ₘ act⟩) :
    Sound D hash T get toCheck ⟨sh', (fed : Multiset Nat) + Q, (l'.toList : Multiset NbL) + act⟩ := by
  obtain ⟨h1, h2, h3, h4, h5, h6⟩ := hs
  simp only [forall_mem_cons] at h2
  obtain ⟨h2, h2'⟩ := h2
  simp only [hasW_cons] at h1 h3 h4 h5 h6
  cases l with
  | chk x =>
    simp only [nbStep] at h
    split_ifs at h with hb hc <;> cases h <;> refine ⟨by simpa using h1, ?_, h3, h4, h5, ?_⟩
    · simpa using h2'
    · intro y e hy; exact h6 y e (Or.inr (by simpa using hy))
    · simpa [OkL] using ⟨h2, h2'⟩
    · intro y e hy; exact h6 y e (by simpa [hasW_cons, inLoop] using hy)
  | setDone x =>
    cases h
    refine ⟨by simpa using h1, by simpa [OkL] using ⟨h2, h2'⟩, h3, h4, h5, ?_⟩
    intro y e hy; exact h6 y e (by simpa [hasW_cons, inLoop] using hy)
  | slot x e =>
    simp only [nbStep] at h
    split_ifs at h with hb hc <;> cases h
    · have hbr : Broken D T x e := by
        by_contra hbr
        have := h5 x e (fun h => hbr h.2.2)
        unfold ent at this
        rw [this] at hc
        exact hbr hc
      have : OkL D hash T get toCheck (.reset x e) := ⟨h2, hb, hbr⟩
      refine ⟨by simpa using h1, by simpa using ⟨this, h2'⟩, h3, h4, h5, ?_⟩
      intro y e hy; exact h6 y e (by simpa [hasW_cons, inLoop] using hy)
    · refine ⟨by simpa using h1, by simpa [OkL] using ⟨h2, h2'⟩, h3, h4, h5, ?_⟩
      intro y e hy; exact h6 y e (by simpa [hasW_cons, inLoop] using hy)
    · refine ⟨by simpa using h1, by simpa using h2', h3, h4, h5, ?_⟩
      intro y e hy; exact h6 y e (by simpa [hasW_cons, inLoop] using hy)
  | reset x e =>
    cases h
    have hl : e < (sh.ns x).length := by
      have := h3 x; rw [hlen x h2.1] at this; rw [this]; exact h2.2.1
    have : OkL D hash T get toCheck (.cand x e (get (faceKey hash (T.vs x) e))) :=
      ⟨h2.1, h2.2, fun c hc => hc⟩
    refine ⟨by simpa using h1, by simpa using ⟨this, h2'⟩, ?_, ?_, ?_, ?_⟩
    · intro y
      simp only [Function.update_apply]
      split_ifs with hy
      · subst hy; simpa using h3 y
      · exact h3 y
    · intro y j hb
      simp only [ent_set hl]
      split_ifs with hy
      · exact Or.inr (Or.inl rfl)
      · exact h4 y j hb
    · intro y j hb
      simp only [ent_set hl]
      split_ifs with hy
      · exact absurd ⟨hy.1 ▸ h2.1, hy.2 ▸ h2.2.1, by rw [hy.1, hy.2]; exact h2.2.2⟩ hb
      · exact h5 y j hb
    · intro y j hb
      simp only [ent_set hl]
      split_ifs with hy
      · exact Or.inl rfl
      · refine h6 y j ?_
        simp only [Option.toList_some, Multiset.coe_singleton, Multiset.singleton_add, hasW_cons, inLoop] at hb ⊢
        rcases hb with hb | hb
        · exact absurd ⟨hb.1.symm, hb.2.symm⟩ hy
        · exact Or.inr hb
  | cand x e cs =>
    cases cs with
    | nil =>
      cases h
      refine ⟨by simpa using h1, by simpa [OkL] using ⟨h2.1, h2'⟩, h3, h4, h5, ?_⟩
      intro y j hy
      simp only [Option.toList_some, Multiset.coe_singleton, Multiset.singleton_add, hasW_cons, inLoop,
        false_or] at hy
      exact h6 y j (Or.inr hy)
    | cons c cs =>
      simp only [nbStep] at h
      split_ifs at h with ha <;> cases h
      · have : OkL D hash T get toCheck (.wr x e c cs) :=
          ⟨h2.1, h2.2.1, ⟨h2.2.2 c (by simp), ha⟩, fun w hw => h2.2.2 w (by simp [hw])⟩
        refine ⟨by simpa using h1, by simpa using ⟨this, h2'⟩, h3, h4, h5, ?_⟩
        intro y j hy
        exact h6 y j (by simpa [hasW_cons, inLoop] using hy)
      · have : OkL D hash T get toCheck (.cand x e cs) :=
          ⟨h2.1, h2.2.1, fun w hw => h2.2.2 w (by simp [hw])⟩
        refine ⟨by simpa using h1, by simpa using ⟨this, h2'⟩, h3, h4, h5, ?_⟩
        intro y j hy
        exact h6 y j (by simpa [hasW_cons, inLoop] using hy)
  | wr x e c cs =>
    cases h
    have hl : e < (sh.ns x).length := by
      have := h3 x; rw [hlen x h2.1] at this; rw [this]; exact h2.2.1.1
    refine ⟨by simpa using h1, by simpa [OkL] using ⟨h2, h2'⟩, ?_, ?_, ?_, ?_⟩
    · intro y
      simp only [Function.update_apply]
      split_ifs with hy
      · subst hy; simpa using h3 y
      · exact h3 y
    · intro y j hb
      simp only [ent_set hl]
      split_ifs with hy
      · exact Or.inr (Or.inr (by rw [hy.1, hy.2]; exact h2.2.2.1))
      · exact h4 y j hb
    · intro y j hb
      simp only [ent_set hl]
      split_ifs with hy
      · exact absurd ⟨hy.1 ▸ h2.1, hy.2 ▸ h2.2.1.1, by rw [hy.1, hy.2]; exact h2.2.1.2⟩ hb
      · exact h5 y j hb
    · intro y j hb
      simp only [ent_set hl]
      split_ifs with hy
      · exact Or.inr (by rw [hy.1, hy.2]; exact h2.2.2.1)
      · refine h6 y j ?_
        simp only [Option.toList_some, Multiset.coe_singleton, Multiset.singleton_add, hasW_cons, inLoop] at hb ⊢
        exact hb
  | rd x e c cs =>
    simp only [nbStep] at h
    split_ifs at h with ha hb <;> cases h
    · refine ⟨by simpa using h1, by simpa [OkL] using ⟨h2, h2'⟩, h3, h4, h5, ?_⟩
      intro y j hy
      exact h6 y j (by simpa [hasW_cons, inLoop] using hy)
    · have : OkL D hash T get toCheck (.cand x e cs) := ⟨h2.1, h2.2.1, h2.2.2.2⟩
      refine ⟨by simpa using h1, by simpa using ⟨this, h2'⟩, h3, h4, h5, ?_⟩
      intro y j hy
      exact h6 y j (by simpa [hasW_cons, inLoop] using hy)
  | setq x e c cs =>
    cases h
    refine ⟨by simpa using h1, by simpa [OkL] using ⟨h2, h2'⟩, h3, h4, h5, ?_⟩
    intro y j hy
    exact h6 y j (by simpa [hasW_cons, inLoop] using hy)
  | feed x e c cs =>
    cases h
    have h7 : OkL D hash T get toCheck (.cand x e cs) := ⟨h2.1, h2.2.1, h2.2.2.2⟩
    have h8 : Proc D hash T get toCheck c := .next x e c h2.1 h2.2.1.1 h2.2.1.2 h2.2.2.1
    refine ⟨by simpa using ⟨h8, h1⟩, by simpa using ⟨h7, h2'⟩, h3, h4, h5, ?_⟩
    intro y j hy
    exact h6 y j (by simpa [hasW_cons, inLoop] using hy)

/-- Completeness invariant. -/
structure Compl (D : Nat) (hash : Nat → BitVec 32) (T : Tri) (get : BitVec 32 → List Nat) (toCheck : List Nat)
    (q d : Nat) (c : Cfg NbSt NbL Nat) : Prop where
  marked : ∀ x ∈ T.range, q ≤ c.sh.mks x → (x ∈ c.queue ∨ HasH c.act x) ∨ Handled D hash T get q c.act c.sh x
  done : ∀ x ∈ T.range, c.sh.mks x = d → Handled D hash T get q c.act c.sh x
  start : ∀ x ∈ toCheck, (x ∈ c.queue ∨ HasH c.act x) ∨ Handled D hash T get q c.act c.sh x
  offer : ∀ x e, Broken D T x e → Offer D hash T get x e (ent c.sh.ns x e) → HasW c.act x e ∨
    AllMarked D hash T get q c.sh.mks x e
  rest : ∀ l ∈ c.act, ∀ x e, inLoop x e l → ∀ k, Offer D hash T get x e k → k ∈ rest l ∨ q ≤ c.sh.mks k

theorem offer_not_needs {x e c : Nat} (h : Offer D hash T get x e c) : needsUpdate D T x c = false :=
  not_needsUpdate_of_accept h.2

theorem compl_chk (q d : Nat) {sh sh' : NbSt} {Q : Multiset Nat} {x : Nat}
    {act : Multiset NbL} {l' : Option NbL} {fed : List Nat}
    (h : nbStep D hash T get q d (.chk x) sh = some (sh', l', fed))
    (hc : Compl D hash T get toCheck q d ⟨sh, Q, .chk x ::ₘ act⟩) :
    Compl D hash T get toCheck q d ⟨sh', (fed : Multiset Nat) + Q, (l'.toList : Multiset NbL) + act⟩ := by
  obtain ⟨h1, h2, h3, h4, h5⟩ := hc
  simp only [Handled, Entry, Queued, hasH_cons, hasS_cons, hasW_cons, hasU_cons, hnd, willS, inLoop, unwritten, rest, false_or, false_and, reduceCtorEq, Option.some.injEq, forall_mem_cons] at h1 h2 h3 h4 h5
  simp only [nbStep] at h
  split_ifs at h with hb hc <;> cases h
  all_goals
    constructor <;> simp only [Handled, Entry, Queued, hasH_cons, hasS_cons, hasW_cons, hasU_cons, hnd, willS, inLoop, unwritten, rest, false_or, false_and, reduceCtorEq, Option.some.injEq, Option.toList_none, Option.toList_some, Multiset.coe_singleton, Multiset.singleton_add, Multiset.coe_nil, zero_add, forall_mem_cons] <;> grind

theorem compl_setDone {q d : Nat} (hqd : q < d) {sh sh' : NbSt} {Q : Multiset Nat} {x : Nat}
    {act : Multiset NbL} {l' : Option NbL} {fed : List Nat}
    (h : nbStep D hash T get q d (.setDone x) sh = some (sh', l', fed))
    (hc : Compl D hash T get toCheck q d ⟨sh, Q, .setDone x ::ₘ act⟩) :
    Compl D hash T get toCheck q d ⟨sh', (fed : Multiset Nat) + Q, (l'.toList : Multiset NbL) + act⟩ := by
  obtain ⟨h1, h2, h3, h4, h5⟩ := hc
  have hall : ∀ y e, AllMarked D hash T get q sh.mks y e →
      AllMarked D hash T get q (Function.update sh.mks x d) y e := by
    intro y e hy c hc
    have := hy c hc
    simp only [Function.update_apply]
    split_ifs <;> omega
  simp only [Handled, Entry, Queued, hasH_cons, hasS_cons, hasW_cons, hasU_cons, hnd, willS, inLoop, unwritten, rest, false_or, false_and, reduceCtorEq, Option.some.injEq, forall_mem_cons] at h1 h2 h3 h4 h5
  cases h
  constructor <;> simp only [Handled, Entry, Queued, hasH_cons, hasS_cons, hasW_cons, hasU_cons, hnd, willS, inLoop, unwritten, rest, false_or, false_and, reduceCtorEq, Option.some.injEq, Option.toList_none, Option.toList_some, Multiset.coe_singleton, Multiset.singleton_add, Multiset.coe_nil, zero_add, forall_mem_cons] <;> grind [Function.update_apply]

theorem compl_slot (q d : Nat) {sh sh' : NbSt} {Q : Multiset Nat} {x e : Nat}
    {act : Multiset NbL} {l' : Option NbL} {fed : List Nat}
    (h : nbStep D hash T get q d (.slot x e) sh = some (sh', l', fed))
    (hs : Sound D hash T get toCheck ⟨sh, Q, .slot x e ::ₘ act⟩)
    (hc : Compl D hash T get toCheck q d ⟨sh, Q, .slot x e ::ₘ act⟩) :
    Compl D hash T get toCheck q d ⟨sh', (fed : Multiset Nat) + Q, (l'.toList : Multiset NbL) + act⟩ := by
  obtain ⟨h1, h2, h3, h4, h5⟩ := hc
  have hv := hs.val
  have hinf : needsUpdate D T x sINF = true := needsUpdate_inf
  simp only [Handled, Entry, Queued, hasH_cons, hasS_cons, hasW_cons, hasU_cons, hnd, willS, inLoop, unwritten, rest, false_or, false_and, reduceCtorEq, Option.some.injEq, forall_mem_cons] at h1 h2 h3 h4 h5 hv
  simp only [nbStep] at h
  have hskip : needsUpdate D T x (ent sh.ns x e) = false → Broken D T x e →
      Offer D hash T get x e (ent sh.ns x e) := by
    intro ha hb
    rcases hv x e hb with h | h | h
    · unfold Broken at hb
      rw [h] at ha
      unfold ent at ha
      rw [ha] at hb
      simp at hb
    · rw [h, hinf] at ha; simp at ha
    · exact h
  rw [show (sh.ns x).getD e 0 = ent sh.ns x e from rfl] at h
  split_ifs at h with hb hc <;> cases h
  all_goals
    constructor <;> simp only [Handled, Entry, Queued, hasH_cons, hasS_cons, hasW_cons, hasU_cons, hnd, willS, inLoop, unwritten, rest, false_or, false_and, reduceCtorEq, Option.some.injEq, Option.toList_none, Option.toList_some, Multiset.coe_singleton, Multiset.singleton_add, Multiset.coe_nil, zero_add, forall_mem_cons] <;> grind

theorem compl_reset (hlen : ∀ x, Proc D hash T get toCheck x → (T.ns x).length = D + 1)
    (q d : Nat) {sh sh' : NbSt} {Q : Multiset Nat} {x e : Nat}
    {act : Multiset NbL} {l' : Option NbL} {fed : List Nat}
    (h : nbStep D hash T get q d (.reset x e) sh = some (sh', l', fed))
    (hs : Sound D hash T get toCheck ⟨sh, Q, .reset x e ::ₘ act⟩)
    (hc : Compl D hash T get toCheck q d ⟨sh, Q, .reset x e ::ₘ act⟩) :
    Compl D hash T get toCheck q d ⟨sh', (fed : Multiset Nat) + Q, (l'.toList : Multiset NbL) + act⟩ := by
  obtain ⟨h1, h2, h3, h4, h5⟩ := hc
  have hok := hs.act (.reset x e) (by simp)
  have hl : e < (sh.ns x).length := by
    have := hs.len x; rw [hlen x hok.1] at this; simp only at this; rw [this]; exact hok.2.1
  simp only [Handled, Entry, Queued, hasH_cons, hasS_cons, hasW_cons, hasU_cons, hnd, willS, inLoop, unwritten, rest, false_or, false_and, reduceCtorEq, Option.some.injEq, forall_mem_cons] at h1 h2 h3 h4 h5
  cases h
  have hg : ∀ c, Offer D hash T get x e c → c ∈ get (faceKey hash (T.vs x) e) := fun c h => h.1
  have hno : ¬ Offer D hash T get x e sINF := by
    rintro ⟨_, h⟩
    rw [accept_iff] at h
    exact h.2.1 rfl
  constructor <;> simp only [Handled, Entry, Queued, hasH_cons, hasS_cons, hasW_cons, hasU_cons, hnd, willS, inLoop, unwritten, rest, false_or, false_and, reduceCtorEq, Option.some.injEq, Option.toList_none, Option.toList_some, Multiset.coe_singleton, Multiset.singleton_add, Multiset.coe_nil, zero_add, forall_mem_cons, ent_set hl] <;> grind

theorem compl_cand (q d : Nat) {sh sh' : NbSt} {Q : Multiset Nat} {x e : Nat} {cs : List Nat}
    {act : Multiset NbL} {l' : Option NbL} {fed : List Nat}
    (h : nbStep D hash T get q d (.cand x e cs) sh = some (sh', l', fed))
    (hs : Sound D hash T get toCheck ⟨sh, Q, .cand x e cs ::ₘ act⟩)
    (hc : Compl D hash T get toCheck q d ⟨sh, Q, .cand x e cs ::ₘ act⟩) :
    Compl D hash T get toCheck q d ⟨sh', (fed : Multiset Nat) + Q, (l'.toList : Multiset NbL) + act⟩ := by
  obtain ⟨h1, h2, h3, h4, h5⟩ := hc
  have hlp := hs.loop
  have hok := hs.act (.cand x e cs) (by simp)
  simp only [Handled, Entry, Queued, hasH_cons, hasS_cons, hasW_cons, hasU_cons, hnd, willS, inLoop, unwritten, rest, false_or, false_and, reduceCtorEq, Option.some.injEq, forall_mem_cons] at h1 h2 h3 h4 h5 hlp
  cases cs with
  | nil =>
    cases h
    have hall : AllMarked D hash T get q sh.mks x e := by
      intro c hc
      rcases h5.1 x e ⟨rfl, rfl⟩ c hc with h | h
      · simp at h
      · exact h
    have hent := hlp x e (Or.inl ⟨rfl, rfl⟩)
    constructor <;> simp only [Handled, Entry, Queued, hasH_cons, hasS_cons, hasW_cons, hasU_cons, hnd, willS, inLoop, unwritten, rest, false_or, false_and, reduceCtorEq, Option.some.injEq, Option.toList_none, Option.toList_some, Multiset.coe_singleton, Multiset.singleton_add, Multiset.coe_nil, zero_add, forall_mem_cons] <;> grind
  | cons c cs =>
    simp only [nbStep] at h
    split_ifs at h with ha <;> cases h
    · constructor <;> simp only [Handled, Entry, Queued, hasH_cons, hasS_cons, hasW_cons, hasU_cons, hnd, willS, inLoop, unwritten, rest, false_or, false_and, reduceCtorEq, Option.some.injEq, Option.toList_none, Option.toList_some, Multiset.coe_singleton, Multiset.singleton_add, Multiset.coe_nil, zero_add, forall_mem_cons] <;> grind
    · have hno : ∀ k, Offer D hash T get x e k → k ≠ c := by
        rintro k hk rfl
        exact ha hk.2
      constructor <;> simp only [Handled, Entry, Queued, hasH_cons, hasS_cons, hasW_cons, hasU_cons, hnd, willS, inLoop, unwritten, rest, false_or, false_and, reduceCtorEq, Option.some.injEq, Option.toList_none, Option.toList_some, Multiset.coe_singleton, Multiset.singleton_add, Multiset.coe_nil, zero_add, forall_mem_cons] <;> grind

theorem compl_wr (hlen : ∀ x, Proc D hash T get toCheck x → (T.ns x).length = D + 1)
    (q d : Nat) {sh sh' : NbSt} {Q : Multiset Nat} {x e c : Nat} {cs : List Nat}
    {act : Multiset NbL} {l' : Option NbL} {fed : List Nat}
    (h : nbStep D hash T get q d (.wr x e c cs) sh = some (sh', l', fed))
    (hs : Sound D hash T get toCheck ⟨sh, Q, .wr x e c cs ::ₘ act⟩)
    (hc : Compl D hash T get toCheck q d ⟨sh, Q, .wr x e c cs ::ₘ act⟩) :
    Compl D hash T get toCheck q d ⟨sh', (fed : Multiset Nat) + Q, (l'.toList : Multiset NbL) + act⟩ := by
  obtain ⟨h1, h2, h3, h4, h5⟩ := hc
  have hok := hs.act (.wr x e c cs) (by simp)
  have hl : e < (sh.ns x).length := by
    have := hs.len x; rw [hlen x hok.1] at this; simp only at this; rw [this]; exact hok.2.1.1
  simp only [OkL] at hok
  simp only [Handled, Entry, Queued, hasH_cons, hasS_cons, hasW_cons, hasU_cons, hnd, willS, inLoop, unwritten, rest, false_or, false_and, reduceCtorEq, Option.some.injEq, forall_mem_cons] at h1 h2 h3 h4 h5
  cases h
  constructor <;> simp only [Handled, Entry, Queued, hasH_cons, hasS_cons, hasW_cons, hasU_cons, hnd, willS, inLoop, unwritten, rest, false_or, false_and, reduceCtorEq, Option.some.injEq, Option.toList_none, Option.toList_some, Multiset.coe_singleton, Multiset.singleton_add, Multiset.coe_nil, zero_add, forall_mem_cons, ent_set hl] <;> grind

theorem compl_rd (q d : Nat) {sh sh' : NbSt} {Q : Multiset Nat} {x e c : Nat} {cs : List Nat}
    {act : Multiset NbL} {l' : Option NbL} {fed : List Nat}
    (h : nbStep D hash T get q d (.rd x e c cs) sh = some (sh', l', fed))
    (hs : Sound D hash T get toCheck ⟨sh, Q, .rd x e c cs ::ₘ act⟩)
    (hc : Compl D hash T get toCheck q d ⟨sh, Q, .rd x e c cs ::ₘ act⟩) :
    Compl D hash T get toCheck q d ⟨sh', (fed : Multiset Nat) + Q, (l'.toList : Multiset NbL) + act⟩ := by
  obtain ⟨h1, h2, h3, h4, h5⟩ := hc
  simp only [Handled, Entry, Queued, hasH_cons, hasS_cons, hasW_cons, hasU_cons, hnd, willS, inLoop, unwritten, rest, false_or, false_and, reduceCtorEq, Option.some.injEq, forall_mem_cons] at h1 h2 h3 h4 h5
  simp only [nbStep] at h
  split_ifs at h with ha hb <;> cases h
  all_goals
    constructor <;> simp only [Handled, Entry, Queued, hasH_cons, hasS_cons, hasW_cons, hasU_cons, hnd, willS, inLoop, unwritten, rest, false_or, false_and, reduceCtorEq, Option.some.injEq, Option.toList_none, Option.toList_some, Multiset.coe_singleton, Multiset.singleton_add, Multiset.coe_nil, zero_add, forall_mem_cons] <;> grind

theorem compl_setq {q d : Nat} (hqd : q < d) {sh sh' : NbSt} {Q : Multiset Nat} {x e c : Nat} {cs : List Nat}
    {act : Multiset NbL} {l' : Option NbL} {fed : List Nat}
    (h : nbStep D hash T get q d (.setq x e c cs) sh = some (sh', l', fed))
    (hs : Sound D hash T get toCheck ⟨sh, Q, .setq x e c cs ::ₘ act⟩)
    (hc : Compl D hash T get toCheck q d ⟨sh, Q, .setq x e c cs ::ₘ act⟩) :
    Compl D hash T get toCheck q d ⟨sh', (fed : Multiset Nat) + Q, (l'.toList : Multiset NbL) + act⟩ := by
  obtain ⟨h1, h2, h3, h4, h5⟩ := hc
  have hall : ∀ y e, AllMarked D hash T get q sh.mks y e →
      AllMarked D hash T get q (Function.update sh.mks c q) y e := by
    intro y e hy c hc
    have := hy c hc
    simp only [Function.update_apply]
    split_ifs <;> omega
  simp only [Handled, Entry, Queued, hasH_cons, hasS_cons, hasW_cons, hasU_cons, hnd, willS, inLoop, unwritten, rest, false_or, false_and, reduceCtorEq, Option.some.injEq, forall_mem_cons] at h1 h2 h3 h4 h5
  cases h
  constructor <;> simp only [Handled, Entry, Queued, hasH_cons, hasS_cons, hasW_cons, hasU_cons, hnd, willS, inLoop, unwritten, rest, false_or, false_and, reduceCtorEq, Option.some.injEq, Option.toList_none, Option.toList_some, Multiset.coe_singleton, Multiset.singleton_add, Multiset.coe_nil, zero_add, forall_mem_cons] <;> grind [Function.update_apply]

theorem compl_feed (q d : Nat) {sh sh' : NbSt} {Q : Multiset Nat} {x e c : Nat} {cs : List Nat}
    {act : Multiset NbL} {l' : Option NbL} {fed : List Nat}
    (h : nbStep D hash T get q d (.feed x e c cs) sh = some (sh', l', fed))
    (hs : Sound D hash T get toCheck ⟨sh, Q, .feed x e c cs ::ₘ act⟩)
    (hc : Compl D hash T get toCheck q d ⟨sh, Q, .feed x e c cs ::ₘ act⟩) :
    Compl D hash T get toCheck q d ⟨sh', (fed : Multiset Nat) + Q, (l'.toList : Multiset NbL) + act⟩ := by
  obtain ⟨h1, h2, h3, h4, h5⟩ := hc
  simp only [Handled, Entry, Queued, hasH_cons, hasS_cons, hasW_cons, hasU_cons, hnd, willS, inLoop, unwritten, rest, false_or, false_and, reduceCtorEq, Option.some.injEq, forall_mem_cons] at h1 h2 h3 h4 h5
  cases h
  constructor <;> simp only [Handled, Entry, Queued, hasH_cons, hasS_cons, hasW_cons, hasU_cons, hnd, willS, inLoop, unwritten, rest, false_or, false_and, reduceCtorEq, Option.some.injEq, Option.toList_none, Option.toList_some, Multiset.coe_singleton, Multiset.singleton_add, Multiset.coe_nil, zero_add, forall_mem_cons, Multiset.mem_cons] <;> grind

theorem compl_step (hlen : ∀ x, Proc D hash T get toCheck x → (T.ns x).length = D + 1)
    {q d : Nat} (hqd : q < d) {sh sh' : NbSt} {Q : Multiset Nat} {l : NbL}
    {act : Multiset NbL} {l' : Option NbL} {fed : List Nat}
    (h : nbStep D hash T get q d l sh = some (sh', l', fed))
    (hs : Sound D hash T get toCheck ⟨sh, Q, l ::ₘ act⟩)
    (hc : Compl D hash T get toCheck q d ⟨sh, Q, l ::ₘ act⟩) :
    Compl D hash T get toCheck q d ⟨sh', (fed : Multiset Nat) + Q, (l'.toList : Multiset NbL) + act⟩ := by
  cases l with
  | chk x => exact compl_chk q d h hc
  | setDone x => exact compl_setDone hqd h hc
  | slot x e => exact compl_slot q d h hs hc
  | reset x e => exact compl_reset hlen q d h hs hc
  | cand x e cs => exact compl_cand q d h hs hc
  | wr x e c cs => exact compl_wr hlen q d h hs hc
  | rd x e c cs => exact compl_rd q d h hs hc
  | setq x e c cs => exact compl_setq hqd h hs hc
  | feed x e c cs => exact compl_feed q d h hs hc

theorem reach_inv (hlen : ∀ x, Proc D hash T get toCheck x → (T.ns x).length = D + 1)
    (hmark : T.mark + 2 < 256) (hm : T.MarksOk) (htc : ∀ x ∈ toCheck, x ∈ T.range)
    {c : Cfg NbSt NbL Nat}
    (h : Reach (nbProg D hash T get) ⟨T.ns, T.mks⟩ (toCheck : Multiset Nat) c) :
    Sound D hash T get toCheck c ∧
      Compl D hash T get toCheck (nextMark T.mark) (nextMark (nextMark T.mark)) c := by
  obtain ⟨e1, e2⟩ := nextMark_two hmark
  refine h.invariant (fun c => Sound D hash T get toCheck c ∧ Compl D hash T get toCheck _ _ c) ?_ ?_ ?_ ?_
  · refine ⟨⟨fun x hx => .start x (by simpa using hx), by simp, fun _ => rfl, fun _ _ _ => Or.inl rfl,
      fun _ _ _ => rfl, ?_⟩, ?_, ?_, ?_, ?_, by simp⟩
    · rintro x e ⟨l, hl, _⟩
      simp at hl
    · intro x hx hq
      have := hm x hx
      simp only at hq
      omega
    · intro x hx hq
      have := hm x hx
      simp only at hq
      omega
    · intro x hx
      exact Or.inl (Or.inl (by simpa using hx))
    · intro x e hb ho
      have := offer_not_needs ho
      unfold Broken at hb
      unfold ent at this
      simp only at this
      rw [this] at hb
      simp at hb
  · rintro sh i Q act ⟨⟨h1, h2, h3, h4, h5, h6⟩, ⟨g1, g2, g3, g4, g5⟩⟩
    simp only [forall_mem_cons] at h1
    refine ⟨⟨h1.2, ?_, h3, h4, h5, ?_⟩, ?_⟩
    · simp only [forall_mem_cons]
      exact ⟨h1.1, h2⟩
    · intro x e hw
      simp only [hasW_cons, nbProg, inLoop, false_or] at hw
      exact h6 x e hw
    · simp only [Handled, Entry, Queued, Multiset.mem_cons] at g1 g2 g3 g4 g5
      refine ⟨?_, ?_, ?_, ?_, ?_⟩
      case refine_5 =>
        simp only [forall_mem_cons]
        exact ⟨by intro x e hx; exact absurd hx (by simp [nbProg, inLoop]), g5⟩
      all_goals
        clear g5
        simp only [nbProg, Handled, Entry, Queued, hasH_cons, hasS_cons, hasW_cons, hasU_cons, hnd, willS,
          inLoop, unwritten, false_or, reduceCtorEq, Option.some.injEq]
        grind
  · rintro sh Q l act sh' l' fed h ⟨hs, hc⟩
    have := And.intro (sound_step hlen _ _ h hs) (compl_step hlen (by omega) h hs hc)
    simpa [Option.toList, Multiset.singleton_add] using this
  · rintro sh Q l act sh' fed h ⟨hs, hc⟩
    have := And.intro (sound_step hlen _ _ h hs) (compl_step hlen (by omega) h hs hc)
    simpa using this

/-! Termination -/

/-- Work for the facets from `e` on. -/
def slotW (D : Nat) (hash : Nat → BitVec 32) (T : Tri) (get : BitVec 32 → List Nat) (x : Nat) (e : Nat) : Nat :=
  if e < D + 1 then 5 * (get (faceKey hash (T.vs x) e)).length + 4 + slotW D hash T get x (e + 1) else 1
termination_by D + 1 - e

def itemW (D : Nat) (hash : Nat → BitVec 32) (T : Tri) (get : BitVec 32 → List Nat) (x : Nat) : Nat :=
  slotW D hash T get x 0 + 3

/-- Bound for the remaining work of a body. -/
def weight (D : Nat) (hash : Nat → BitVec 32) (T : Tri) (get : BitVec 32 → List Nat) (U : Finset Nat) : NbL → Nat
  | .chk x => slotW D hash T get x 0 + 2
  | .setDone x => slotW D hash T get x 0 + 1
  | .slot x e => slotW D hash T get x e
  | .reset x e => 5 * (get (faceKey hash (T.vs x) e)).length + 3 + slotW D hash T get x (e + 1)
  | .cand x e cs => 5 * cs.length + 1 + slotW D hash T get x (e + 1)
  | .wr x e _ cs => 5 * cs.length + 5 + slotW D hash T get x (e + 1)
  | .rd x e _ cs => 5 * cs.length + 4 + slotW D hash T get x (e + 1)
  | .setq x e c cs => if c ∈ U then 5 * cs.length + 3 + slotW D hash T get x (e + 1)
      else itemW D hash T get c + 5 * cs.length + 3 + slotW D hash T get x (e + 1)
  | .feed x e c cs => itemW D hash T get c + 5 * cs.length + 2 + slotW D hash T get x (e + 1)

theorem step_decreases {q d : Nat} (hqd : q ≤ d) {sh sh' : NbSt} {l : NbL} {l' : Option NbL}
    {fed : List Nat} (h : nbStep D hash T get q d l sh = some (sh', l', fed)) :
    (Edge.unq T q sh'.mks).card < (Edge.unq T q sh.mks).card ∨
    (Edge.unq T q sh'.mks = Edge.unq T q sh.mks ∧
      (fed.map (itemW D hash T get)).sum + (l'.toList.map (weight D hash T get (Edge.unq T q sh.mks))).sum <
        weight D hash T get (Edge.unq T q sh.mks) l) := by
  cases l with
  | chk x =>
    right
    simp only [nbStep] at h
    split_ifs at h <;> cases h <;> simp [weight]
  | setDone x =>
    cases h
    simp only [Edge.unq_update hqd]
    by_cases hx : x ∈ Edge.unq T q sh.mks
    · exact Or.inl (Finset.card_erase_lt_of_mem hx)
    · right
      rw [Finset.erase_eq_of_notMem hx]
      simp [weight]
  | slot x e =>
    right
    simp only [nbStep] at h
    split_ifs at h with ha hb <;> cases h
    · simp only [weight, List.map_nil, List.sum_nil, Option.toList_some, List.map_cons, List.sum_cons, true_and]
      rw [slotW.eq_def D hash T get x e, if_pos ha]; omega
    · simp only [weight, List.map_nil, List.sum_nil, Option.toList_some, List.map_cons, List.sum_cons, true_and]
      rw [slotW.eq_def D hash T get x e, if_pos ha]; omega
    · simp only [weight, List.map_nil, List.sum_nil, Option.toList_none, true_and]
      rw [slotW.eq_def D hash T get x e, if_neg ha]; omega
  | reset x e => cases h; right; simp [weight]
  | cand x e cs =>
    right
    cases cs with
    | nil => cases h; simp [weight]
    | cons c cs =>
      simp only [nbStep] at h
      split_ifs at h <;> cases h <;> simp [weight] <;> omega
  | wr x e c cs => cases h; right; simp [weight]
  | rd x e c cs =>
    right
    simp only [nbStep] at h
    split_ifs at h with ha hb <;> cases h
    · have : c ∈ Edge.unq T q sh.mks := by simp [Edge.unq, ha, hb]
      simp [weight, this]
    · simp [weight]
  | setq x e c cs =>
    cases h
    simp only [Edge.unq_update (le_refl q)]
    by_cases hx : c ∈ Edge.unq T q sh.mks
    · exact Or.inl (Finset.card_erase_lt_of_mem hx)
    · right
      rw [Finset.erase_eq_of_notMem hx]
      simp [weight, hx]
  | feed x e c cs => cases h; right; simp [weight]; omega

/-- Measure of a configuration. -/
def measure (D : Nat) (hash : Nat → BitVec 32) (T : Tri) (get : BitVec 32 → List Nat) (q : Nat)
    (c : Cfg NbSt NbL Nat) : Nat × Nat :=
  ((Edge.unq T q c.sh.mks).card, (c.queue.map (itemW D hash T get)).sum +
    (c.act.map (weight D hash T get (Edge.unq T q c.sh.mks))).sum)

theorem measure_step {c c' : Cfg NbSt NbL Nat} (hmark : T.mark + 2 < 256)
    (h : Step (nbProg D hash T get) c c') : Prod.Lex (· < ·) (· < ·)
      (measure D hash T get (nextMark T.mark) c') (measure D hash T get (nextMark T.mark) c) := by
  obtain ⟨e1, e2⟩ := nextMark_two hmark
  cases h with
  | start sh i Q act =>
    refine Prod.Lex.right _ ?_
    have hw : ∀ U, weight D hash T get U (.chk i) + 1 = itemW D hash T get i := by
      intro U; simp [weight, itemW]
    have := hw (Edge.unq T (nextMark T.mark) sh.mks)
    revert this
    generalize weight D hash T get (Edge.unq T (nextMark T.mark) sh.mks) = W
    intro this
    change (Multiset.map (itemW D hash T get) Q).sum + (Multiset.map W (NbL.chk i ::ₘ act)).sum <
      (Multiset.map (itemW D hash T get) (i ::ₘ Q)).sum + (Multiset.map W act).sum
    simp only [Multiset.map_cons, Multiset.sum_cons]
    omega
  | run sh Q l act sh' l' fed h =>
    rcases step_decreases (by omega) h with h1 | ⟨h1, h2⟩
    · exact Prod.Lex.left _ _ h1
    · simp only [measure, h1]
      refine Prod.Lex.right _ ?_
      revert h2
      generalize hW : weight D hash T get (Edge.unq T (nextMark T.mark) sh.mks) = W
      intro h2
      change (Multiset.map (itemW D hash T get) (↑fed + Q)).sum + (Multiset.map W (↑l'.toList + act)).sum <
        (Multiset.map (itemW D hash T get) Q).sum + (Multiset.map W (l ::ₘ act)).sum
      simp only [Multiset.map_add, Multiset.sum_add, Multiset.map_cons, Multiset.sum_cons, Multiset.map_coe,
        Multiset.sum_coe]
      omega

end Nb

/-- **C51**: whatever the schedule (any order of the work list, duplicated work, racing marks and racing
updates of one entry), the processed simplices are exactly the given ones and those found as neighbours of
processed ones; an entry that is infinite, not in the triangulation or not a neighbour is replaced by a
simplex that the face index offers, or by infinity if there is none; nothing else changes. -/
theorem C51_updateNeighbors (D : Nat) (hash : Nat → BitVec 32) (T : Tri) (get : BitVec 32 → List Nat)
    (toCheck : List Nat) (ns : Nat → List Nat) (mks : Nat → Nat)
    (hlen : ∀ x, Proc D hash T get toCheck x → (T.ns x).length = D + 1)
    (hmark : T.mark + 2 < 256) (hm : T.MarksOk) (htc : ∀ x ∈ toCheck, x ∈ T.range)
    (h : Final (nbProg D hash T get) ⟨T.ns, T.mks⟩ (toCheck : Multiset Nat) ⟨ns, mks⟩) :
    (∀ x, (ns x).length = (T.ns x).length) ∧
    (∀ x e, Proc D hash T get toCheck x → e < D + 1 → Broken D T x e →
      Offer D hash T get x e ((ns x).getD e 0) ∨
        ((ns x).getD e 0 = sINF ∧ ∀ c, ¬ Offer D hash T get x e c)) ∧
    (∀ x e, ¬ (Proc D hash T get toCheck x ∧ e < D + 1 ∧ Broken D T x e) →
      (ns x).getD e 0 = (T.ns x).getD e 0) := by
  obtain ⟨hs, hc⟩ := Nb.reach_inv hlen hmark hm htc h
  refine ⟨hs.len, ?_, hs.keep⟩
  have noH : ∀ x, ¬ Nb.HasH 0 x := by rintro x ⟨l, hl, _⟩; simp at hl
  have noS : ∀ x e, ¬ Nb.HasS 0 x e := by rintro x e ⟨l, hl, _⟩; simp at hl
  have noW : ∀ x e, ¬ Nb.HasW 0 x e := by rintro x e ⟨l, hl, _⟩; simp at hl
  have noU : ∀ x e, ¬ Nb.HasU D hash T get 0 x e := by rintro x e ⟨l, hl, _⟩; simp at hl
  have hp : ∀ x, Proc D hash T get toCheck x →
      Nb.Handled D hash T get (nextMark T.mark) 0 ⟨ns, mks⟩ x := by
    intro x hx
    induction hx with
    | start x hx =>
      rcases hc.start x hx with (h | h) | h
      · simp at h
      · exact absurd h (noH x)
      · exact h
    | next x e c hx he hb ho ih =>
      rcases (ih e he hb).2 with h | h | h
      · exact absurd h (noS x e)
      · exact absurd h (noW x e)
      · have hcr := ho.2
        rw [accept_iff] at hcr
        rcases hc.marked c (Tri.contains_iff.mp hcr.2.2.1).1 (h c ho) with (h | h) | h
        · simp at h
        · exact absurd h (noH c)
        · exact h
  intro x e hx he hb
  rcases (hp x hx e he hb).1 with h | h | h | h
  · exact absurd h (noS x e)
  · exact absurd h (noU x e)
  · exact Or.inl h
  · exact Or.inr h

/-- **C51** (termination): no schedule is infinite. -/
theorem C51_updateNeighbors_terminates (D : Nat) (hash : Nat → BitVec 32) (T : Tri)
    (get : BitVec 32 → List Nat) (hmark : T.mark + 2 < 256) :
    ¬ ∃ f : Nat → Cfg NbSt NbL Nat, ∀ k, Step (nbProg D hash T get) (f k) (f (k + 1)) :=
  no_infinite _ (Prod.lex Nat.lt_wfRel Nat.lt_wfRel).wf (Nb.measure D hash T get (nextMark T.mark))
    (fun _ _ h => Nb.measure_step hmark h)

theorem Proc.mem_range (htc : ∀ x ∈ toCheck, x ∈ T.range) {x : Nat} (h : Proc D hash T get toCheck x) :
    x ∈ T.range := by
  cases h with
  | start x hx => exact htc x hx
  | next x e c hx he hb ho =>
    have hcr := ho.2
    rw [accept_iff] at hcr
    exact (Tri.contains_iff.mp hcr.2.2.1).1

/-- **C51** (defined behaviour). -/
theorem C51_updateNeighbors_defined (D : Nat) (hash : Nat → BitVec 32) (T : Tri) (get : BitVec 32 → List Nat)
    (toCheck : List Nat)
    (hlen : ∀ x, Proc D hash T get toCheck x → (T.ns x).length = D + 1)
    (hmark : T.mark + 2 < 256) (hm : T.MarksOk) (htc : ∀ x ∈ toCheck, x ∈ T.range)
    (c : Cfg NbSt NbL Nat)
    (h : Reach (nbProg D hash T get) ⟨T.ns, T.mks⟩ (toCheck : Multiset Nat) c) :
    ¬ Undef (nbProg D hash T get) c ∧ (Terminal c ∨ ∃ c', Step (nbProg D hash T get) c c') := by
  obtain ⟨hs, -⟩ := Nb.reach_inv hlen hmark hm htc h
  have : ¬ Undef (nbProg D hash T get) c := by
    rintro ⟨l, hl, hu⟩
    have hok := hs.act l hl
    simp only [nbProg] at hu
    cases l with
    | chk x =>
      simp only [nbStep] at hu
      split_ifs at hu with ha
      exact ha (Proc.mem_range htc hok)
    | rd x e c cs =>
      simp only [nbStep] at hu
      split_ifs at hu with ha
      have hcr := hok.2.2.1.2
      rw [accept_iff] at hcr
      exact ha (Tri.contains_iff.mp hcr.2.2.1).1
    | slot x e => simp only [nbStep] at hu; split_ifs at hu
    | cand x e cs =>
      cases cs with
      | nil => simp [nbStep] at hu
      | cons c cs => simp only [nbStep] at hu; split_ifs at hu
    | _ => simp [nbStep] at hu
  exact ⟨this, progress this⟩

/-- `updateNeighbors` writes only the two new marks. -/
theorem updateNeighbors_marks {ns : Nat → List Nat} {mks : Nat → Nat}
    (h : Final (nbProg D hash T get) ⟨T.ns, T.mks⟩ (toCheck : Multiset Nat) ⟨ns, mks⟩) :
    ∀ x, mks x = T.mks x ∨ mks x = nextMark T.mark ∨ mks x = nextMark (nextMark T.mark) := by
  have key : ∀ sh sh' l l' fed, (nbProg D hash T get).step l sh = some (sh', l', fed) →
      (∀ x, sh.mks x = T.mks x ∨ sh.mks x = nextMark T.mark ∨ sh.mks x = nextMark (nextMark T.mark)) →
      ∀ x, sh'.mks x = T.mks x ∨ sh'.mks x = nextMark T.mark ∨ sh'.mks x = nextMark (nextMark T.mark) := by
    intro sh sh' l l' fed h ih x
    have ih := ih x
    simp only [nbProg] at h
    cases l with
    | setDone y =>
      cases h
      simp only [Function.update_apply]
      split_ifs
      · exact Or.inr (Or.inr rfl)
      · exact ih
    | setq y e n l =>
      cases h
      simp only [Function.update_apply]
      split_ifs
      · exact Or.inr (Or.inl rfl)
      · exact ih
    | chk y => simp only [nbStep] at h; split_ifs at h <;> cases h <;> exact ih
    | slot y e => simp only [nbStep] at h; split_ifs at h <;> cases h <;> exact ih
    | reset y e => cases h; exact ih
    | cand y e cs =>
      cases cs with
      | nil => cases h; exact ih
      | cons c cs => simp only [nbStep] at h; split_ifs at h <;> cases h <;> exact ih
    | wr y e c cs => cases h; exact ih
    | rd y e c cs => simp only [nbStep] at h; split_ifs at h <;> cases h <;> exact ih
    | feed y e c cs => cases h; exact ih
  exact Reach.invariant h (fun c => ∀ x, c.sh.mks x = T.mks x ∨ c.sh.mks x = nextMark T.mark ∨
    c.sh.mks x = nextMark (nextMark T.mark)) (fun x => Or.inl rfl) (fun sh i q act h => h)
    (fun _ _ _ _ _ _ _ h ih => key _ _ _ _ _ h ih) (fun _ _ _ _ _ _ h ih => key _ _ _ _ _ h ih)

/-- **C47** (partial: as long as the 8-bit counter does not overflow), pass of `updateNeighbors`. -/
theorem C47_updateNeighbors_partial (D : Nat) (hash : Nat → BitVec 32) (T T' : Tri) (toCheck : List Nat)
    (wu : List (BitVec 32 × Nat)) (hm : T.MarksOk) (hmark : T.mark + 2 < 256)
    (h : UpdateNeighbors D hash T toCheck wu T') :
    T'.MarksOk ∧ T'.mark = T.mark + 2 ∧ ∀ x ∈ T.range, T.mks x < nextMark T.mark := by
  obtain ⟨get, ns, mks, -, hf, rfl⟩ := h
  have hk := updateNeighbors_marks hf
  obtain ⟨e1, e2⟩ := nextMark_two hmark
  refine ⟨fun x hx => ?_, e2, fun x hx => ?_⟩
  · have : T.mks x ≤ T.mark := hm x hx
    rcases hk x with h | h | h <;> simp only [h] <;> omega
  · have := hm x hx
    omega

/-- Two triangles that have lost their common edge. -/
def torn : Tri where
  range := {1, 2}
  id := fun i => i
  vs := fun i => if i = 1 then [1, 2, 3] else [2, 3, 4]
  ns := fun _ => [sINF, sINF, sINF]
  mks := fun _ => 0
  hull := []
  mark := 0

example : let hash := fun v => BitVec.ofNat 32 (16 ^ v); let get := fun _ => [1, 2]
    (∀ x, (torn.ns x).length = 2 + 1) ∧ torn.mark + 2 < 256 ∧ torn.MarksOk ∧ (∀ x ∈ [1], x ∈ torn.range) ∧
    Proc 2 hash torn get [1] 2 ∧ Broken 2 torn 1 0 ∧ Offer 2 hash torn get 1 0 2 ∧
    ¬ Offer 2 hash torn get 1 1 2 := by
  intro hash get
  have ho : Offer 2 hash torn get 1 0 2 := by
    refine ⟨by simp [get], ?_⟩
    rw [accept_iff]
    refine ⟨by simp [torn], by decide, by decide, by simp [torn, Simplex.shared],
      by simp [torn, Simplex.containsVs]⟩
  have hb : Broken 2 torn 1 0 := by
    unfold Broken
    rw [needsUpdate_iff]
    exact Or.inl rfl
  refine ⟨fun _ => rfl, by decide, fun _ _ => le_refl _, by decide,
    .next 1 0 2 (.start 1 (by simp)) (by omega) hb ho, hb, ho, ?_⟩
  rintro ⟨_, h⟩
  rw [accept_iff] at h
  simp [torn, Simplex.containsVs] at h

end DC
end Verif

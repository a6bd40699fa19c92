import Verif.Props.Misc
import Verif.Model.BitSet

/-!
# The 32-bit instance of `popcount`
-/
namespace Verif
namespace Misc

theorem bytes_of32 (x : Nat) (h : x < 2 ^ 32) : ∃ b0 b1 b2 b3,
    x = ofBytes [b0, b1, b2, b3] ∧ b0 < 256 ∧ b1 < 256 ∧ b2 < 256 ∧ b3 < 256 := by
  refine ⟨x % 256, x / 256 % 256, x / 256 ^ 2 % 256, x / 256 ^ 3 % 256, ?_, ?_, ?_, ?_, ?_⟩
  · simp only [ofBytes]; omega
  all_goals exact Nat.mod_lt _ (by omega)

theorem mul_lanes32 (d0 d1 d2 d3 : Nat) (h0 : d0 ≤ 8) (h1 : d1 ≤ 8) (h2 : d2 ≤ 8)
    (h3 : d3 ≤ 8) :
    (d0 + 256 * (d1 + 256 * (d2 + 256 * (d3 + 256 * 0)))) * 0x01010101 % 2 ^ 32 / 2 ^ 24 =
      d0 + (d1 + (d2 + (d3 + 0))) := by
  have e : (d0 + 256 * (d1 + 256 * (d2 + 256 * (d3 + 256 * 0)))) * 0x01010101 =
      (d0 + 2 ^ 8 * (d0 + d1) + 2 ^ 16 * (d0 + d1 + d2)) + 2 ^ 24 * (d0 + d1 + d2 + d3) +
      2 ^ 32 * ((d1 + d2 + d3) + 2 ^ 8 * (d2 + d3) + 2 ^ 16 * d3) := by
    ring
  have hlow : d0 + 2 ^ 8 * (d0 + d1) + 2 ^ 16 * (d0 + d1 + d2) < 2 ^ 24 := by omega
  rw [e, Nat.add_mul_mod_self_left]
  generalize d0 + 2 ^ 8 * (d0 + d1) + 2 ^ 16 * (d0 + d1 + d2) = L at hlow
  rw [Nat.mod_eq_of_lt (by omega), Nat.add_mul_div_left _ _ (by omega), Nat.div_eq_of_lt hlow]
  omega

/-- **C29 (popcount).** For every 32-bit word the bit trick returns the number of set bits. -/
theorem C29_popcount32 (x : BitVec 32) :
    (popcount32 x).toNat = (List.range 32).countP (fun j => x.getLsbD j) := by
  obtain ⟨b0, b1, b2, b3, hx, h0, h1, h2, h3⟩ := bytes_of32 x.toNat x.isLt
  have hall : ∀ b ∈ [b0, b1, b2, b3], b < 256 := by
    intro b hb; simp at hb; rcases hb with h|h|h|h <;> rw [h] <;> assumption
  have hspec := countBits_ofBytes [b0, b1, b2, b3] hall
  rw [← hx] at hspec
  have hspec' : (List.range 32).countP (fun j => x.getLsbD j) =
      ([b0, b1, b2, b3].map bitsOf).sum := by
    rw [← hspec]
    simp [BitVec.testBit_toNat]
  rw [hspec']
  -- step 1
  let cs := [b0, b1, b2, b3].map (fun b => b - ((b / 2) &&& 0x55))
  let ds := cs.map (fun c => (c &&& 0x33) + ((c / 4) &&& 0x33))
  have hcs : ∀ c ∈ cs, c < 256 := by
    intro c hc
    obtain ⟨b, hb, rfl⟩ := List.mem_map.1 hc
    exact (byte_table b (hall b hb)).1
  have hds : ∀ d ∈ ds, d % 16 ≤ 4 ∧ d / 16 ≤ 4 ∧ d < 256 := by
    intro d hd
    obtain ⟨c, hc, rfl⟩ := List.mem_map.1 hd
    obtain ⟨b, hb, rfl⟩ := List.mem_map.1 hc
    have := byte_table b (hall b hb)
    exact ⟨this.2.2.1, this.2.2.2.1, this.2.2.2.2.1⟩
  have s1 : (x - ((x >>> 1) &&& 0x55555555#32)).toNat = ofBytes cs := by
    have ha : ((x >>> 1) &&& 0x55555555#32).toNat =
        ofBytes ([b0, b1, b2, b3].map (fun b => (b / 2) &&& 0x55)) := by
      rw [BitVec.toNat_and, BitVec.toNat_ushiftRight, Nat.shiftRight_eq_div_pow, hx]
      exact ofBytes_shift_and 0x55 1 (by omega) (by decide) _ hall
    have hsub := ofBytes_sub [b0, b1, b2, b3]
      ([b0, b1, b2, b3].map (fun b => (b / 2) &&& 0x55)) (by simp) (by
        intro p hp
        rw [List.zip_map_right] at hp
        obtain ⟨q, hq, rfl⟩ := List.mem_map.1 hp
        have : q.1 = q.2 ∧ q.1 ∈ [b0, b1, b2, b3] := by
          simp at hq; rcases hq with h|h|h|h <;> rw [h] <;> simp
        show (q.2 / 2 &&& 0x55) ≤ q.1
        rw [← this.1]
        exact (byte_table q.1 (hall _ this.2)).2.1)
    have hle : ((x >>> 1) &&& 0x55555555#32).toNat ≤ x.toNat := by rw [ha, hx]; exact hsub.1
    rw [BitVec.toNat_sub_of_le (BitVec.le_def.2 hle), ha, hx, hsub.2]
    simp [cs]
  have s2 : ((x - ((x >>> 1) &&& 0x55555555#32) &&& 0x33333333#32) +
      ((x - ((x >>> 1) &&& 0x55555555#32)) >>> 2 &&& 0x33333333#32)).toNat =
      ofBytes ds := by
    have e1 := ofBytes_and 0x33 (by decide) cs hcs
    have e2 := ofBytes_shift_and 0x33 2 (by omega) (by decide) cs hcs
    have e3 := ofBytes_add (cs.map (fun c => c &&& 0x33)) (cs.map (fun c => (c / 2 ^ 2) &&& 0x33))
      (by simp)
    rw [BitVec.toNat_add, BitVec.toNat_and, BitVec.toNat_and, BitVec.toNat_ushiftRight,
      Nat.shiftRight_eq_div_pow, s1]
    have m1 : (0x33333333#32 : BitVec 32).toNat = ofBytes (List.replicate cs.length 0x33) := by
      simp [cs, ofBytes]
    rw [m1, e1, e2, e3]
    have e4 : List.zipWith (fun a b => a + b) (cs.map (fun c => c &&& 0x33))
        (cs.map (fun c => (c / 2 ^ 2) &&& 0x33)) = ds := by
      simp [cs, ds]
    rw [e4]
    apply Nat.mod_eq_of_lt
    have := ofBytes_lt ds (fun d hd => (hds d hd).2.2)
    have hl : ds.length = 4 := by simp [ds, cs]
    rw [hl] at this
    exact lt_of_lt_of_le this (by decide)
  -- step 3 and the multiplication
  have hfin : ∀ v : BitVec 32, v.toNat = ofBytes ds →
      ((((v + (v >>> 4)) &&& 0x0F0F0F0F#32) * 0x01010101#32) >>> 24).toNat =
        ([b0, b1, b2, b3].map bitsOf).sum := by
    intro v hv
    have hlen : ds.length = 4 := by simp [ds, cs]
    have hsmall : ofBytes ds + ofBytes ds / 16 < 2 ^ 32 := by
      have : ofBytes ds ≤ 0x44444444 := by
        have g : ∀ l : List Nat, (∀ d ∈ l, d % 16 ≤ 4 ∧ d / 16 ≤ 4 ∧ d < 256) →
            ofBytes l ≤ ofBytes (List.replicate l.length 0x44) := by
          intro l
          induction l with
          | nil => intro _; simp [ofBytes]
          | cons a l ih =>
            intro hl
            have h1 := ih (fun d hd => hl d (by simp [hd]))
            have h2 := hl a (by simp)
            simp only [ofBytes, List.length_cons, List.replicate_succ]
            omega
        have := g ds hds
        rw [hlen] at this
        simpa [ofBytes, List.replicate] using this
      omega
    have e3 := ofBytes_nibble ds (fun d hd => ⟨(hds d hd).1, (hds d hd).2.1⟩)
    have hmap : ds.map (fun b => b % 16 + b / 16) = [b0, b1, b2, b3].map bitsOf := by
      simp only [ds, cs, List.map_map]
      apply List.map_congr_left
      intro b hb
      exact (byte_table b (hall b hb)).2.2.2.2.2.1
    have hv3 : ((v + (v >>> 4)) &&& 0x0F0F0F0F#32).toNat =
        ofBytes ([b0, b1, b2, b3].map bitsOf) := by
      rw [BitVec.toNat_and, BitVec.toNat_add, BitVec.toNat_ushiftRight, Nat.shiftRight_eq_div_pow, hv]
      have m1 : (0x0F0F0F0F#32 : BitVec 32).toNat = ofBytes (List.replicate ds.length 15) := by
        rw [hlen]; simp [ofBytes, List.replicate]
      rw [m1, Nat.mod_eq_of_lt hsmall, ← hmap]
      exact e3
    have c0 := (byte_table b0 h0).2.2.2.2.2.2
    have c1 := (byte_table b1 h1).2.2.2.2.2.2
    have c2 := (byte_table b2 h2).2.2.2.2.2.2
    have c3 := (byte_table b3 h3).2.2.2.2.2.2
    rw [BitVec.toNat_ushiftRight, Nat.shiftRight_eq_div_pow, BitVec.toNat_mul, hv3]
    have m2 : (0x01010101#32 : BitVec 32).toNat = 0x01010101 := by decide
    rw [m2]
    simp only [List.map_cons, List.map_nil, ofBytes, List.sum_cons, List.sum_nil]
    generalize bitsOf b0 = d0 at *
    generalize bitsOf b1 = d1 at *
    generalize bitsOf b2 = d2 at *
    generalize bitsOf b3 = d3 at *
    clear hspec hspec' hall hcs hds s1 s2 hv3 hmap e3 hsmall hlen hv hx
    exact mul_lanes32 d0 d1 d2 d3 c0 c1 c2 c3
  exact hfin _ s2


end Misc
end Verif

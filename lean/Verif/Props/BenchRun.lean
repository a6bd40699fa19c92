import Verif.Model.Bench
import Verif.Props.Run
import Verif.Props.Bench

/-!
# C118: the benchmark program executes the runs it generated
-/
namespace Verif
namespace Bench
open Run Report

/-! ### Numbers and characters -/

theorem ofNat_toNat {c : Nat} (h : c < 256) : (Char.ofNat c).toNat = c := by
  have hv : c.isValidChar := Or.inl (by omega)
  unfold Char.ofNat
  rw [dif_pos hv]
  rfl

theorem digit_toNat {n : Nat} : (digit n).toNat = 48 + n % 10 := by
  unfold digit
  exact ofNat_toNat (by omega)

theorem nat_ne_nil (n : Nat) : nat n ≠ [] := by
  unfold nat; split <;> simp

theorem nat_digits (n : Nat) : ∀ c ∈ nat n, 48 ≤ c.toNat ∧ c.toNat ≤ 57 := by
  induction n using Nat.strong_induction_on with
  | _ n ih =>
    intro c hc
    have hd : ∀ c, c = digit n → 48 ≤ c.toNat ∧ c.toNat ≤ 57 := by
      rintro c rfl
      rw [digit_toNat]
      omega
    rw [nat] at hc
    split at hc
    · exact hd c (by simpa using hc)
    · rename_i hn
      rcases List.mem_append.1 hc with hc | hc
      · exact ih (n / 10) (by omega) c hc
      · exact hd c (by simpa using hc)

theorem nat_value (n : Nat) : (nat n).foldl (fun v c => 10 * v + (c.toNat - 48)) 0 = n := by
  induction n using Nat.strong_induction_on with
  | _ n ih =>
    rw [nat]
    split
    · simp only [List.foldl_cons, List.foldl_nil, digit_toNat]
      omega
    · rw [List.foldl_append, ih (n / 10) (by omega)]
      simp only [List.foldl_cons, List.foldl_nil, digit_toNat]
      omega

theorem digits_nat (n : Nat) : digits (nat n) = some n := by
  unfold digits
  rw [if_pos ⟨nat_ne_nil n, nat_digits n⟩, nat_value]

theorem digits_bit (b : Bool) : digits (bit b) = some b.toNat := by cases b <;> decide

/-- A byte that is no white space. -/
def Letter (c : Nat) : Prop := c < 256 ∧ isSpace (Char.ofNat c) = false

theorem chr_read {c : Nat} (h : Letter c) : (chr c).dropWhile isSpace = [Char.ofNat c] := by
  simp [chr, List.dropWhile, h.2]

theorem clean_nospace {v : Str} (h0 : v ≠ []) (h : ' ' ∉ v) : CleanValue v := by
  refine ⟨h0, fun hh => h ?_, fun hh => h ?_, fun hh => h (hh.subset (by simp))⟩
  · exact List.mem_of_head? hh
  · exact List.mem_of_getLast? hh

theorem clean_nat (n : Nat) : CleanValue (nat n) := by
  refine clean_nospace (nat_ne_nil n) fun h => ?_
  have := (nat_digits n _ h).1
  exact absurd this (by decide)

theorem clean_bit (b : Bool) : CleanValue (bit b) := by
  cases b <;> exact clean_nospace (by decide) (by decide)

theorem clean_chr {c : Nat} (h : Letter c) : CleanValue (chr c) := by
  refine clean_nospace (by simp [chr]) fun hm => ?_
  rw [chr, List.mem_singleton] at hm
  have := h.2
  rw [← hm] at this
  exact absurd this (by decide)

/-! ### The shape of a run -/

/-- The parameters a run has, depending on the algorithm, in the ranges of their types. -/
structure Shape (e : Exp) : Prop where
  dist : Letter e.dist
  alg : Letter e.alg
  n : e.n < 2 ^ 32
  threads : e.threads < 2 ^ 32
  occ : ∀ o, e.occupancy = some o → o < 2 ^ 32
  split : ∀ s, e.splitter = some s → Letter s
  cgal : e.alg = 'c'.toNat → e.occupancy = none ∧ e.splitter = none ∧ e.parBase = none ∧ e.parEdge = none
  par : e.alg = 'm'.toNat → (∃ o, e.occupancy = some o) ∧ e.splitter = none ∧ e.parBase = none ∧ e.parEdge = none
  dc : e.alg ≠ 'c'.toNat → e.alg ≠ 'm'.toNat →
    (∃ o, e.occupancy = some o) ∧ (∃ s, e.splitter = some s) ∧ (∃ b, e.parBase = some b) ∧ ∃ p, e.parEdge = some p

theorem traits_c (host rev : Str) (d n a t : Nat) : traits host rev ⟨d, n, a, t, none, none, none, none⟩ =
    [("alg".toList, chr a), ("dist".toList, chr d), ("git-rev".toList, rev), ("host".toList, host), ("nP".toList, nat n),
      ("threads".toList, nat t)] := by
  with_unfolding_all rfl

theorem traits_m (host rev : Str) (d n a t o : Nat) : traits host rev ⟨d, n, a, t, some o, none, none, none⟩ =
    [("alg".toList, chr a), ("dist".toList, chr d), ("git-rev".toList, rev), ("host".toList, host), ("nP".toList, nat n),
      ("occupancy".toList, nat o), ("threads".toList, nat t)] := by
  with_unfolding_all rfl

theorem traits_d (host rev : Str) (d n a t o s : Nat) (b p : Bool) :
    traits host rev ⟨d, n, a, t, some o, some s, some b, some p⟩ =
    [("alg".toList, chr a), ("dist".toList, chr d), ("git-rev".toList, rev), ("host".toList, host), ("nP".toList, nat n),
      ("occupancy".toList, nat o), ("parallel-base".toList, bit b), ("parallel-edge".toList, bit p),
      ("splitter".toList, chr s), ("threads".toList, nat t)] := by
  with_unfolding_all rfl

/-! ### Reading the traits -/

theorem getUint_done {m : Traits} {name : Str} {n : Nat} (h : getTrait m name = .done (nat n)) (hn : n < 2 ^ 32) :
    getUint m name = .done n := by
  simp only [getUint, h, Res.bind, digits_nat, if_pos hn]

theorem getChar_done {m : Traits} {name : Str} {c : Nat} (h : getTrait m name = .done (chr c)) (hc : Letter c) :
    getChar m name = .done c := by
  simp only [getChar, h, Res.bind, chr_read hc, ofNat_toNat hc.1]

theorem getBool_done {m : Traits} {name : Str} {b : Bool} (h : getTrait m name = .done (bit b)) :
    getBool m name = .done b := by
  simp only [getBool, h, Res.bind, digits_bit]
  cases b <;> rfl

/-- Any traits that contain those of the run, apart from host name and revision. -/
theorem execute_done {host rev host' rev' : Str} {e : Exp} (he : Shape e) {r : Traits}
    (hr : r = (traits host rev e).foldl keep (Run.new host' rev')) : execute r = .done e := by
  obtain ⟨d, n, a, t, o, s, b, p⟩ := e
  by_cases hc : a = 'c'.toNat
  · obtain ⟨rfl, rfl, rfl, rfl⟩ := he.cgal hc
    have hr : r = [("alg".toList, chr a), ("dist".toList, chr d), ("git-rev".toList, rev'), ("host".toList, host'),
      ("nP".toList, nat n), ("threads".toList, nat t)] := by
      rw [hr, traits_c]
      with_unfolding_all rfl
    have h1 : getTrait r (txt! "dist") = .done (chr d) := by rw [hr]; with_unfolding_all rfl
    have h2 : getTrait r (txt! "nP") = .done (nat n) := by rw [hr]; with_unfolding_all rfl
    have h3 : getTrait r (txt! "alg") = .done (chr a) := by rw [hr]; with_unfolding_all rfl
    have h4 : getTrait r (txt! "threads") = .done (nat t) := by rw [hr]; with_unfolding_all rfl
    have h5 : (r.any fun t => t.1 == txt! "threads") = true := by rw [hr]; with_unfolding_all rfl
    simp only [execute, getChar_done h1 he.dist, getUint_done h2 he.n, getChar_done h3 he.alg, h5, if_true,
      getUint_done h4 he.threads, Res.bind, if_pos hc]
  · by_cases hm : a = 'm'.toNat
    · obtain ⟨⟨o, rfl⟩, rfl, rfl, rfl⟩ := he.par hm
      have hr : r = [("alg".toList, chr a), ("dist".toList, chr d), ("git-rev".toList, rev'), ("host".toList, host'),
        ("nP".toList, nat n), ("occupancy".toList, nat o), ("threads".toList, nat t)] := by
        rw [hr, traits_m]
        with_unfolding_all rfl
      have h1 : getTrait r (txt! "dist") = .done (chr d) := by rw [hr]; with_unfolding_all rfl
      have h2 : getTrait r (txt! "nP") = .done (nat n) := by rw [hr]; with_unfolding_all rfl
      have h3 : getTrait r (txt! "alg") = .done (chr a) := by rw [hr]; with_unfolding_all rfl
      have h4 : getTrait r (txt! "threads") = .done (nat t) := by rw [hr]; with_unfolding_all rfl
      have h5 : (r.any fun t => t.1 == txt! "threads") = true := by rw [hr]; with_unfolding_all rfl
      have h6 : getTrait r (txt! "occupancy") = .done (nat o) := by rw [hr]; with_unfolding_all rfl
      simp only [execute, getChar_done h1 he.dist, getUint_done h2 he.n, getChar_done h3 he.alg, h5, if_true,
        getUint_done h4 he.threads, Res.bind, if_neg hc, getUint_done h6 (he.occ o rfl), if_pos hm]
    · obtain ⟨⟨o, rfl⟩, ⟨s, rfl⟩, ⟨b, rfl⟩, p, rfl⟩ := he.dc hc hm
      have hr : r = [("alg".toList, chr a), ("dist".toList, chr d), ("git-rev".toList, rev'), ("host".toList, host'),
        ("nP".toList, nat n), ("occupancy".toList, nat o), ("parallel-base".toList, bit b), ("parallel-edge".toList, bit p),
        ("splitter".toList, chr s), ("threads".toList, nat t)] := by
        rw [hr, traits_d]
        with_unfolding_all rfl
      have h1 : getTrait r (txt! "dist") = .done (chr d) := by rw [hr]; with_unfolding_all rfl
      have h2 : getTrait r (txt! "nP") = .done (nat n) := by rw [hr]; with_unfolding_all rfl
      have h3 : getTrait r (txt! "alg") = .done (chr a) := by rw [hr]; with_unfolding_all rfl
      have h4 : getTrait r (txt! "threads") = .done (nat t) := by rw [hr]; with_unfolding_all rfl
      have h5 : (r.any fun t => t.1 == txt! "threads") = true := by rw [hr]; with_unfolding_all rfl
      have h6 : getTrait r (txt! "occupancy") = .done (nat o) := by rw [hr]; with_unfolding_all rfl
      have h7 : getTrait r (txt! "splitter") = .done (chr s) := by rw [hr]; with_unfolding_all rfl
      have h8 : getTrait r (txt! "parallel-base") = .done (bit b) := by rw [hr]; with_unfolding_all rfl
      have h9 : getTrait r (txt! "parallel-edge") = .done (bit p) := by rw [hr]; with_unfolding_all rfl
      simp only [execute, getChar_done h1 he.dist, getUint_done h2 he.n, getChar_done h3 he.alg, h5, if_true,
        getUint_done h4 he.threads, Res.bind, if_neg hc, getUint_done h6 (he.occ o rfl), if_neg hm,
        getChar_done h7 (he.split s rfl), getBool_done h8, getBool_done h9]

theorem keep_self {host rev : Str} {e : Exp} (he : Shape e) :
    traits host rev e = (traits host rev e).foldl keep (Run.new host rev) := by
  obtain ⟨d, n, a, t, o, s, b, p⟩ := e
  by_cases hc : a = 'c'.toNat
  · obtain ⟨rfl, rfl, rfl, rfl⟩ := he.cgal hc
    rw [traits_c]
    with_unfolding_all rfl
  · by_cases hm : a = 'm'.toNat
    · obtain ⟨⟨o, rfl⟩, rfl, rfl, rfl⟩ := he.par hm
      rw [traits_m]
      with_unfolding_all rfl
    · obtain ⟨⟨o, rfl⟩, ⟨s, rfl⟩, ⟨b, rfl⟩, p, rfl⟩ := he.dc hc hm
      rw [traits_d]
      with_unfolding_all rfl

theorem traits_clean {host rev : Str} {e : Exp} (he : Shape e) (hh : CleanValue host) (hr : CleanValue rev) :
    ((traits host rev e).map Prod.fst).Nodup ∧ ∀ t ∈ traits host rev e, CleanName t.1 ∧ CleanValue t.2 := by
  obtain ⟨d, n, a, t, o, s, b, p⟩ := e
  by_cases hc : a = 'c'.toNat
  · obtain ⟨rfl, rfl, rfl, rfl⟩ := he.cgal hc
    rw [traits_c]
    refine ⟨by simp, ?_⟩
    simp only [List.mem_cons, List.not_mem_nil, or_false]
    rintro x (rfl | rfl | rfl | rfl | rfl | rfl)
    exacts [⟨by simp [CleanName], clean_chr he.alg⟩, ⟨by simp [CleanName], clean_chr he.dist⟩, ⟨by simp [CleanName], hr⟩, ⟨by simp [CleanName], hh⟩,
      ⟨by simp [CleanName], clean_nat n⟩, ⟨by simp [CleanName], clean_nat t⟩]
  · by_cases hm : a = 'm'.toNat
    · obtain ⟨⟨o, rfl⟩, rfl, rfl, rfl⟩ := he.par hm
      rw [traits_m]
      refine ⟨by simp, ?_⟩
      simp only [List.mem_cons, List.not_mem_nil, or_false]
      rintro x (rfl | rfl | rfl | rfl | rfl | rfl | rfl)
      exacts [⟨by simp [CleanName], clean_chr he.alg⟩, ⟨by simp [CleanName], clean_chr he.dist⟩, ⟨by simp [CleanName], hr⟩, ⟨by simp [CleanName], hh⟩,
        ⟨by simp [CleanName], clean_nat n⟩, ⟨by simp [CleanName], clean_nat o⟩, ⟨by simp [CleanName], clean_nat t⟩]
    · obtain ⟨⟨o, rfl⟩, ⟨s, rfl⟩, ⟨b, rfl⟩, p, rfl⟩ := he.dc hc hm
      rw [traits_d]
      refine ⟨by simp, ?_⟩
      simp only [List.mem_cons, List.not_mem_nil, or_false]
      rintro x (rfl | rfl | rfl | rfl | rfl | rfl | rfl | rfl | rfl | rfl)
      exacts [⟨by simp [CleanName], clean_chr he.alg⟩, ⟨by simp [CleanName], clean_chr he.dist⟩, ⟨by simp [CleanName], hr⟩, ⟨by simp [CleanName], hh⟩,
        ⟨by simp [CleanName], clean_nat n⟩, ⟨by simp [CleanName], clean_nat o⟩, ⟨by simp [CleanName], clean_bit b⟩, ⟨by simp [CleanName], clean_bit p⟩,
        ⟨by simp [CleanName], clean_chr (he.split s rfl)⟩, ⟨by simp [CleanName], clean_nat t⟩]

/-- Every wanted experiment has the shape, if the options are letters and in the ranges of their types. -/
theorem Wanted.shape {dists algs splitters occs : List Nat} {maxN minN maxT minT : Nat} {parBase : Bool}
    {parEdge : Option Bool} {e : Exp} (h : Wanted dists algs splitters occs maxN minN maxT minT parBase parEdge e)
    (hd : ∀ c ∈ dists, Letter c) (ha : ∀ c ∈ algs, Letter c) (hs : ∀ c ∈ splitters, Letter c)
    (ho : ∀ o ∈ occs, o < 2 ^ 32) (hN : maxN < 2 ^ 32) (hT : maxT < 2 ^ 32) : Shape e := by
  have hcm : 'c'.toNat ≠ 'm'.toNat := by decide
  have h3 := h.n
  have h2 : e.alg = 'c'.toNat ∨ e.alg = 'm'.toNat ∨ (e.alg ≠ 'c'.toNat ∧ e.alg ≠ 'm'.toNat) := by tauto
  refine ⟨hd _ h.dist, ha _ h.alg, by omega, ?_, ?_, ?_, fun hc => (h.cgal hc).2, fun hm => ?_, fun hc hm => ?_⟩
  · by_cases hc : e.alg = 'c'.toNat
    · rw [(h.cgal hc).1]; decide
    · exact lt_of_le_of_lt (h.threads hc).2 hT
  · intro o heo
    rcases h2 with hc | hm | ⟨hc, hm⟩
    · rw [(h.cgal hc).2.1] at heo; cases heo
    · obtain ⟨o', ho', h4⟩ := (h.par hm).1
      rw [h4] at heo; cases heo; exact ho _ ho'
    · rcases (h.dc hc hm).2.2 with ⟨-, h4⟩ | ⟨-, -, o', ho', h4⟩
      · rw [h4] at heo; cases heo; decide
      · rw [h4] at heo; cases heo; exact ho _ ho'
  · intro s hes
    rcases h2 with hc | hm | ⟨hc, hm⟩
    · rw [(h.cgal hc).2.2.1] at hes; cases hes
    · rw [(h.par hm).2.1] at hes; cases hes
    · obtain ⟨s', hs', h4⟩ := (h.dc hc hm).1
      rw [h4] at hes; cases hes; exact hs _ hs'
  · obtain ⟨⟨o, -, h4⟩, h5⟩ := h.par hm
    exact ⟨⟨o, h4⟩, h5⟩
  · obtain ⟨⟨s, -, h4⟩, ⟨b, h5, -⟩, h6⟩ := h.dc hc hm
    rcases h6 with ⟨h6, h7⟩ | ⟨-, h6, o, -, h7⟩
    · exact ⟨⟨_, h7⟩, ⟨s, h4⟩, ⟨_, h6⟩, ⟨b, h5⟩⟩
    · exact ⟨⟨_, h7⟩, ⟨s, h4⟩, ⟨_, h6⟩, ⟨b, h5⟩⟩

/-! ### The property -/

/-- A generated run is executed with its parameters. -/
theorem C118_execute (host rev : Str) (e : Exp) (he : Shape e) : execute (traits host rev e) = .done e :=
  execute_done he (keep_self he)

/-- A generated run that was written by `--gen-only` on one machine and is read by `--runs` or `--run-string` on another
one is executed with its parameters. Host name and revision must not be empty, begin or end with a space, or contain
three spaces in a row. -/
theorem C118_reread (host rev host' rev' : Str) (e : Exp) (he : Shape e) (hh : CleanValue host) (hr : CleanValue rev)
    (hl : (str (traits host rev e) traitSep innerSep).length < 2 ^ 63) :
    ∃ r, Returns (parse host' rev' (str (traits host rev e) traitSep innerSep) traitSep innerSep) r ∧
      execute r = .done e := by
  obtain ⟨h1, h2⟩ := traits_clean he hh hr
  exact ⟨_, parse_str h1 h2 hl host' rev', execute_done he rfl⟩

/-- The two together with C117: all generated runs are executed as they are wanted. -/
theorem C118_generated (dists algs splitters occs : List Nat) (maxN minN maxT minT : Nat) (parBase : Bool)
    (parEdge : Option Bool) (e : Exp) (h : Wanted dists algs splitters occs maxN minN maxT minT parBase parEdge e)
    (hd : ∀ c ∈ dists, Letter c) (ha : ∀ c ∈ algs, Letter c) (hs : ∀ c ∈ splitters, Letter c)
    (ho : ∀ o ∈ occs, o < 2 ^ 32) (hN : maxN < 2 ^ 32) (hT : maxT < 2 ^ 32) (host rev : Str) :
    execute (traits host rev e) = .done e :=
  C118_execute host rev e (h.shape hd ha hs ho hN hT)

theorem runLoop_up (n : Nat) : ∀ (k i fuel : Nat), i + k = n → k < fuel →
    runLoop n false fuel i = .done (List.range' i k) := by
  intro k
  induction k with
  | zero =>
    intro i fuel hi hf
    obtain ⟨f, rfl⟩ : ∃ f, fuel = f + 1 := ⟨fuel - 1, by omega⟩
    simp only [runLoop, Bool.false_eq_true, if_false]
    rw [if_pos (by omega)]
    rfl
  | succ k ih =>
    intro i fuel hi hf
    obtain ⟨f, rfl⟩ : ∃ f, fuel = f + 1 := ⟨fuel - 1, by omega⟩
    simp only [runLoop, Bool.false_eq_true, if_false]
    rw [if_neg (by omega), if_pos (by omega)]
    have : ((i : Int) + 1) = ((i + 1 : Nat) : Int) := by push_cast; ring
    rw [this, ih (i + 1) f (by omega) (by omega), List.range'_succ]
    rfl

theorem runLoop_down (n : Nat) : ∀ (i fuel : Nat), i ≤ n → i < fuel →
    runLoop n true fuel ((i : Int) - 1) = .done (List.range i).reverse := by
  intro i
  induction i with
  | zero =>
    intro fuel hi hf
    obtain ⟨f, rfl⟩ : ∃ f, fuel = f + 1 := ⟨fuel - 1, by omega⟩
    rfl
  | succ i ih =>
    intro fuel hi hf
    obtain ⟨f, rfl⟩ : ∃ f, fuel = f + 1 := ⟨fuel - 1, by omega⟩
    simp only [runLoop, if_true]
    rw [if_neg (by omega), if_pos (by omega)]
    have h1 : ((i + 1 : Nat) : Int) - 1 + -1 = (i : Int) - 1 := by omega
    have h2 : (((i + 1 : Nat) : Int) - 1).toNat = i := by omega
    rw [h1, ih f (by omega) (by omega), h2, List.range_succ, List.reverse_append]
    rfl

/-- Every run is executed once: in the order of generation, or backwards with `--reverse`; also if there are none. -/
theorem C118_order (n : Nat) (reverse : Bool) :
    Returns (runExperiments n reverse) (if reverse then (List.range n).reverse else List.range n) := by
  refine ⟨n + 1, fun m hm => ?_⟩
  unfold runExperiments
  cases reverse
  · simp only [Bool.false_eq_true, if_false]
    rw [List.range_eq_range']
    exact runLoop_up n n 0 m (by omega) (by omega)
  · simp only [if_true]
    exact runLoop_down n n m (le_refl _) (by omega)

/-- A run of the divide and conquer algorithm with two threads, written on host `a` and read on host `b`. -/
example : Shape ⟨'u'.toNat, 1000, 'd'.toNat, 2, some 100, some 'c'.toNat, some true, some false⟩ ∧
    CleanValue (txt! "a") ∧ CleanValue (txt! "0123abc") := by
  refine ⟨⟨⟨by decide, by decide⟩, ⟨by decide, by decide⟩, by decide, by decide, ?_, ?_, fun h => absurd h (by decide),
    fun h => absurd h (by decide), fun _ _ => ⟨⟨_, rfl⟩, ⟨_, rfl⟩, ⟨_, rfl⟩, ⟨_, rfl⟩⟩⟩, ?_, ?_⟩
  · intro o h; cases h; decide
  · intro s h; cases h; exact ⟨by decide, by decide⟩
  · exact clean_nospace (by decide) (by decide)
  · exact clean_nospace (by decide) (by decide)

end Bench
end Verif

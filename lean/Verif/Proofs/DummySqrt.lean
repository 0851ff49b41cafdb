import Verif.Proofs.DummyEngine

/-!
# The square root of the test field
-/

namespace Bellman

namespace Dummy

open PrimeField

/-- The residue class of a word. -/
def z (a : Fr) : DummyFr := (a.w.toNat : ℕ)

theorem z_mul {a b : Fr} (ha : a.Canonical) (hb : b.Canonical) : z (a.mul b) = z a * z b := toZ_mul ⟨a, ha⟩ ⟨b, hb⟩

theorem z_square {a : Fr} (ha : a.Canonical) : z a.square = z a ^ 2 := by rw [square_eq_mul, z_mul ha ha, pow_two]

theorem z_one : z Fr.ONE = 1 := toZ_one

theorem z_inj {a b : Fr} (ha : a.Canonical) (hb : b.Canonical) (h : z a = z b) : a = b :=
  congrArg Subtype.val (toZ_inj (a₁ := ⟨a, ha⟩) (a₂ := ⟨b, hb⟩) h)

theorem z_eq_one {a : Fr} (ha : a.Canonical) : a = Fr.ONE ↔ z a = 1 :=
  ⟨fun h => by rw [h, z_one], fun h => z_inj ha one_canonical (h.trans z_one.symm)⟩

theorem z_pow {a : Fr} (ha : a.Canonical) (e : BitVec 64) : z (a.powVartime e) = z a ^ e.toNat :=
  toZ_pow ha e rfl (pow_val ha e).1

theorem sq_eq_one_iff_of_ne {x : DummyFr} (hne : x ≠ 1) (h : x ^ 2 = 1) : x = -1 :=
  (mul_self_eq_one_iff.1 (by rw [← pow_two]; exact h)).resolve_left hne

theorem orderLoop_done {fuel : ℕ} {t : Fr} (ht : t.Canonical) {i k : ℕ} (hk : z t ^ 2 ^ k = 1)
    (hmin : ∀ j < k, z t ^ 2 ^ j ≠ 1) (hf : k < fuel) (hi : i + k < 2 ^ 32) :
    Fr.orderLoop fuel t i = .done (i + k) := by
  induction fuel generalizing t i k with
  | zero => omega
  | succ fuel ih =>
    unfold Fr.orderLoop
    by_cases h1 : z t = 1
    · have : k = 0 := by
        by_contra hk0
        exact hmin 0 (by omega) (by simpa using h1)
      subst this
      rw [if_pos ((z_eq_one ht).2 h1)]; rfl
    · have hk0 : k ≠ 0 := by
        rintro rfl
        exact h1 (by simpa using hk)
      obtain ⟨k', rfl⟩ := Nat.exists_eq_succ_of_ne_zero hk0
      rw [if_neg (fun h => h1 ((z_eq_one ht).1 h)), if_pos (by omega)]
      have hp : ∀ j, z t.square ^ 2 ^ j = z t ^ 2 ^ (j + 1) := by
        intro j
        rw [z_square ht, ← pow_mul, pow_succ, mul_comm]
      rw [ih (square_canonical t) (k := k') (by rw [hp]; exact hk) (fun j hj => by rw [hp]; exact hmin _ (by omega)) (by omega)
        (by omega)]
      congr 1
      omega

theorem squares_fold {c : Fr} (hc : c.Canonical) (n : ℕ) :
    let out := (List.range n).foldl (fun c _ => c.square) c
    out.Canonical ∧ z out = z c ^ 2 ^ n := by
  induction n with
  | zero => exact ⟨hc, by simp⟩
  | succ n ih =>
    rw [List.range_succ, List.foldl_append]
    refine ⟨square_canonical _, ?_⟩
    show z (Fr.square _) = _
    rw [z_square ih.1, ih.2, ← pow_mul, pow_succ]

theorem sqrtLoop_done {x : DummyFr} {inner fuel m : ℕ} {c r t : Fr} (hc : c.Canonical) (hr : r.Canonical) (ht : t.Canonical)
    (hinv : z r ^ 2 = x * z t) (htm : z t ^ 2 ^ (m - 1) = 1) (hcm : z c ^ 2 ^ (m - 1) = -1) (hm : 1 ≤ m) (hm' : m ≤ 10)
    (hf : m ≤ fuel) (hin : 10 ≤ inner) :
    ∃ o, Fr.sqrtLoop inner fuel c r t m = .done o ∧ o.Canonical ∧ z o ^ 2 = x := by
  induction fuel generalizing c r t m with
  | zero => omega
  | succ fuel ih =>
    unfold Fr.sqrtLoop
    by_cases h1 : z t = 1
    · rw [if_pos ((z_eq_one ht).2 h1)]
      exact ⟨r, rfl, hr, by rw [hinv, h1, mul_one]⟩
    · rw [if_neg (fun h => h1 ((z_eq_one ht).1 h))]
      have hex : ∃ k, z t ^ 2 ^ k = 1 := ⟨_, htm⟩
      classical
      obtain ⟨i, hi, hmin⟩ : ∃ i, z t ^ 2 ^ i = 1 ∧ ∀ j < i, z t ^ 2 ^ j ≠ 1 :=
        ⟨Nat.find hex, Nat.find_spec hex, fun j hj => Nat.find_min hex hj⟩
      have hi0 : i ≠ 0 := by
        rintro rfl
        exact h1 (by simpa using hi)
      have him : i ≤ m - 1 := by
        by_contra hlt
        exact hmin (m - 1) (by omega) htm
      obtain ⟨k, rfl⟩ := Nat.exists_eq_succ_of_ne_zero hi0
      have hp : ∀ j, z t.square ^ 2 ^ j = z t ^ 2 ^ (j + 1) := by
        intro j
        rw [z_square ht, ← pow_mul, pow_succ, mul_comm]
      have hord := orderLoop_done (fuel := inner) (square_canonical t) (i := 1) (k := k) (by rw [hp]; exact hi)
        (fun j hj => by rw [hp]; exact hmin _ (by omega)) (by omega) (by omega)
      rw [hord]
      simp only
      rw [if_pos (by omega)]
      obtain ⟨hfc, hfz⟩ := squares_fold hc (m - (1 + k) - 1)
      generalize (List.range (m - (1 + k) - 1)).foldl (fun c _ => c.square) c = b at hfc hfz
      have hb2 : z b.square ^ 2 ^ k = -1 := by
        rw [z_square hfc, hfz, ← pow_mul, ← pow_mul, ← hcm]
        congr 1
        rw [← pow_succ', ← pow_add]
        congr 1
        omega
      have htk : z t ^ 2 ^ k = -1 := by
        have h2 : (z t ^ 2 ^ k) ^ 2 = 1 := by rw [← pow_mul, ← pow_succ]; exact hi
        exact (sq_eq_one_iff_of_ne (hmin k (by omega)) h2)
      refine ih (square_canonical _) (mul_canonical _ _) (mul_canonical _ _) ?_ ?_ ?_ (by omega) (by omega) (by omega)
      · rw [z_mul hr hfc, z_mul ht (square_canonical _), z_square hfc, mul_pow, hinv]; ring
      · rw [Nat.add_sub_cancel_left, z_mul ht (square_canonical _), mul_pow, htk, hb2]; ring
      · rw [Nat.add_sub_cancel_left]; exact hb2

theorem root_pow : (57751 : DummyFr) ^ 512 = -1 := by
  have h := dummy_root.pow (a := 512) (b := 2) (by norm_num) (by norm_num)
  have h2 := h.pow_eq_one
  exact sq_eq_one_iff_of_ne (h.ne_one (by norm_num)) h2

theorem z_root : z Fr.ROOT_OF_UNITY = 57751 := rfl

theorem root_canonical : Fr.ROOT_OF_UNITY.Canonical := by show (57751#32).toNat < _; decide

theorem card_dummy : Fintype.card DummyFr = 64513 := ZMod.card dummyP

theorem dummy_char : ringChar DummyFr ≠ 2 := by
  rw [ZMod.ringChar_zmod_n]; decide

theorem square_pow {x : DummyFr} (h0 : x ≠ 0) (hs : IsSquare x) : x ^ 32256 = 1 :=
  (FiniteField.isSquare_iff dummy_char h0).1 hs |> fun h => by rwa [card_dummy] at h

theorem nonsquare_pow {x : DummyFr} (h0 : x ≠ 0) (hs : ¬ IsSquare x) : x ^ 32256 = -1 := by
  have h := FiniteField.pow_dichotomy dummy_char h0
  rw [card_dummy] at h
  rcases h with h | h
  · exact absurd ((FiniteField.isSquare_iff dummy_char h0).2 (by rw [card_dummy]; exact h)) hs
  · exact h

theorem sqrt_square {a : Fr} (ha : a.Canonical) (h0 : z a ≠ 0) (hs : IsSquare (z a)) {fuel : ℕ} (hf : 10 ≤ fuel) :
    ∃ r, Fr.sqrt fuel a = .done (some r) ∧ r.Canonical ∧ r.mul r = a := by
  obtain ⟨o, ho, hoc, ho2⟩ := sqrtLoop_done (x := z a) (inner := fuel) (fuel := fuel) (m := Fr.S) root_canonical
    (pow_val ha 32#64).1 (pow_val ha 63#64).1
    (by
      rw [z_pow ha, z_pow ha, show (32#64).toNat = 32 from rfl, show (63#64).toNat = 63 from rfl]; ring)
    (by
      rw [z_pow ha, show (63#64).toNat = 63 from rfl, show Fr.S - 1 = 9 from rfl, ← pow_mul]
      exact square_pow h0 hs)
    (by rw [z_root]; exact root_pow) (by decide) (by decide) hf hf
  have hmul : o.mul o = a := z_inj (mul_canonical _ _) ha (by rw [z_mul hoc hoc, ← pow_two, ho2])
  refine ⟨o, ?_, hoc, hmul⟩
  unfold Fr.sqrt
  rw [ho]
  simp [Fr.ctEq, hmul]

theorem sqrt_nonsquare {a : Fr} (ha : a.Canonical) (h0 : z a ≠ 0) (hs : ¬ IsSquare (z a)) {fuel : ℕ} (hf : 10 ≤ fuel) :
    Fr.sqrt fuel a = .panic := by
  have hn := nonsquare_pow h0 hs
  have ht := (pow_val ha 63#64).1
  have hz : z (a.powVartime 63#64) = z a ^ 63 := z_pow ha 63#64
  have h9 : z (a.powVartime 63#64) ^ 2 ^ 9 = -1 := by rw [hz, ← pow_mul]; exact hn
  have hneg : (-1 : DummyFr) ≠ 1 := by
    intro h
    have h2 : ((2 : ℕ) : DummyFr) = ((0 : ℕ) : DummyFr) := by
      push_cast
      linear_combination -h
    exact natCast_ne (by decide) (by decide) (by decide) h2
  have hlow : ∀ j ≤ 9, z (a.powVartime 63#64) ^ 2 ^ j ≠ 1 := by
    intro j hj h
    have : z (a.powVartime 63#64) ^ 2 ^ 9 = 1 := by
      rw [show 9 = j + (9 - j) by omega, pow_add, pow_mul, h, one_pow]
    exact hneg (h9.symm.trans this)
  have h10 : z (a.powVartime 63#64) ^ 2 ^ 10 = 1 := by
    rw [show (10 : ℕ) = 9 + 1 from rfl, pow_succ, pow_mul, h9]; norm_num
  have hp : ∀ j, z (a.powVartime 63#64).square ^ 2 ^ j = z (a.powVartime 63#64) ^ 2 ^ (j + 1) := by
    intro j
    rw [z_square ht, ← pow_mul, pow_succ, mul_comm]
  obtain ⟨fuel, rfl⟩ : ∃ f, fuel = f + 1 := ⟨fuel - 1, by omega⟩
  have hord := orderLoop_done (fuel := fuel + 1) (square_canonical (a.powVartime 63#64)) (i := 1) (k := 9)
    (by rw [hp]; exact h10) (fun j hj => by rw [hp]; exact hlow _ (by omega)) (by omega) (by norm_num)
  unfold Fr.sqrt Fr.sqrtLoop
  rw [if_neg (fun h => hlow 0 (by omega) (by simpa using (z_eq_one ht).1 h)), hord]
  rfl

theorem orderLoop_zero (fuel i : ℕ) (n : ℕ) : Fr.orderLoop fuel Fr.ZERO i ≠ .done n := by
  induction fuel generalizing i with
  | zero => simp [Fr.orderLoop]
  | succ fuel ih =>
    unfold Fr.orderLoop
    rw [if_neg (by decide)]
    split
    · rw [show Fr.ZERO.square = Fr.ZERO by decide]; exact ih _
    · simp

theorem sqrt_zero (fuel : ℕ) (o : Option Fr) : Fr.sqrt fuel Fr.ZERO ≠ .done o := by
  have hp : Fr.ZERO.powVartime 63#64 = Fr.ZERO := by decide +kernel
  have hl : ∀ r, Fr.sqrtLoop fuel fuel Fr.ROOT_OF_UNITY (Fr.ZERO.powVartime 32#64) (Fr.ZERO.powVartime 63#64) Fr.S ≠
      .done r := by
    intro r
    rw [hp]
    cases fuel with
    | zero => simp [Fr.sqrtLoop]
    | succ fuel =>
      unfold Fr.sqrtLoop
      rw [if_neg (by decide), show Fr.ZERO.square = Fr.ZERO by decide]
      split
      · simp
      · simp
      · rename_i i h; exact absurd h (orderLoop_zero _ _ _)
  unfold Fr.sqrt
  split
  · rename_i r h; exact absurd h (hl r)
  · simp
  · simp

end Dummy

end Bellman

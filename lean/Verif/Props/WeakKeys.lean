import Verif.Props.Tampered
import Verif.Spec.Strategy

/-!
# C77: keys with which anybody can prove anything
-/

namespace Bellman

open PrimeField Finset UnitTests Polynomial

set_option linter.unusedSectionVars false

variable {F G1 G2 GT : Type} [PrimeField F] [AddCommGroup G1] [AddCommGroup G2] [AddCommGroup GT] [Module F G1] [Module F G2]
  [Module F GT] [DecidableEq G1] [DecidableEq G2] [DecidableEq GT]

/-- The combination `ic₀ + Σ xᵢ icᵢ₊₁` of the elements of a verifying key that belongs to the public inputs. -/
def VerifyingKey.inputSum (vk : VerifyingKey G1 G2) (xs : List F) : G1 := linSum (((1 : F) :: xs).getD · 0) vk.ic

theorem accepts_inputSum (E : Engine F G1 G2 GT) (vk : VerifyingKey G1 G2) (pf : Proof G1 G2) (xs : List F) :
    Accepts E vk pf xs ↔ E.pairing pf.a pf.b =
      E.pairing vk.alphaG1 vk.betaG2 + E.pairing (vk.inputSum xs) vk.gammaG2 + E.pairing pf.c vk.deltaG2 := Iff.rfl

/-- C77: the proof made of `alpha_g1`, `beta_g2` and `-c` times the combination of the inputs, all read off the verifying key, is accepted exactly
if `gamma_g2` is `c` times `delta_g2` (or that combination is the identity): whoever knows the ratio of the two needs no witness and no parameters. -/
theorem C77_ratio (E : Engine F G1 G2 GT) (vk : VerifyingKey G1 G2) (c : F) (xs : List F) :
    verifyProof E (prepareVerifyingKey E vk) { a := vk.alphaG1, b := vk.betaG2, c := -(c • vk.inputSum xs) } xs = some (.ok ()) ↔
      xs.length + 1 = vk.ic.length ∧ (vk.gammaG2 = c • vk.deltaG2 ∨ vk.inputSum xs = 0) := by
  rw [verifyProof_ok, accepts_inputSum]
  refine and_congr_right fun _ => ?_
  have h : E.pairing (vk.inputSum xs) (vk.gammaG2 - c • vk.deltaG2) =
      E.pairing (vk.inputSum xs) vk.gammaG2 + E.pairing (-(c • vk.inputSum xs)) vk.deltaG2 := by
    simp [sub_eq_add_neg]
  rw [add_assoc, left_eq_add, ← h]
  constructor
  · intro h0
    rcases E.nondegenerate _ _ h0 with h0 | h0
    · exact .inr h0
    · exact .inl (sub_eq_zero.1 h0)
  · rintro (h0 | h0)
    · rw [sub_eq_zero.2 h0, map_zero]
    · rw [h0, map_zero, LinearMap.zero_apply]

/-- C77: if `alpha_g1` or `beta_g2` is the identity, the proof made of the combination of the inputs, `gamma_g2 + s delta_g2` and `s` times the
combination is accepted, whatever `s`; and if neither is, none of these proofs is. -/
theorem C77_identity (E : Engine F G1 G2 GT) (vk : VerifyingKey G1 G2) (s : F) (xs : List F) :
    verifyProof E (prepareVerifyingKey E vk)
      { a := vk.inputSum xs, b := vk.gammaG2 + s • vk.deltaG2, c := s • vk.inputSum xs } xs = some (.ok ()) ↔
      xs.length + 1 = vk.ic.length ∧ (vk.alphaG1 = 0 ∨ vk.betaG2 = 0) := by
  rw [verifyProof_ok, accepts_inputSum]
  refine and_congr_right fun _ => ?_
  simp only [map_add, map_smul, LinearMap.smul_apply, add_left_inj, right_eq_add]
  constructor
  · exact E.nondegenerate _ _
  · rintro (h | h) <;> simp [h]

/-- C77: `generate_parameters` does not look at the ratio of `γ` and `δ`: if it succeeds at all with this `δ` it succeeds with `γ = δ` too, and
then everybody who has the verifying key can prove every statement. -/
theorem C77_equal (E : Engine F G1 G2 GT) (w : Worker) (kc : Synth F Unit) (g1 : G1) (g2 : G2) (α β γ δ τ : F) (params : Parameters G1 G2)
    (hk : generateParameters w kc g1 g2 α β γ δ τ = Res.ok params) : ∃ weak : Parameters G1 G2,
    generateParameters w kc g1 g2 α β δ δ τ = Res.ok weak ∧ weak.vk.ic.length = params.vk.ic.length ∧
      ∀ xs : List F, xs.length + 1 = weak.vk.ic.length →
        verifyProof E (prepareVerifyingKey E weak.vk) { a := weak.vk.alphaG1, b := weak.vk.betaG2, c := -weak.vk.inputSum xs } xs = some (.ok ()) := by
  obtain ⟨t, ht, -, rfl, hγ, hδ, hl, hrows⟩ := C29_crs w kc g1 g2 α β γ δ τ params hk
  obtain ⟨s, h2, h3⟩ := ht.assemble
  obtain ⟨-, p2⟩ := generateParameters_spec w kc g1 g2 α β γ δ τ t s h2 h3
  obtain ⟨-, p2'⟩ := generateParameters_spec w kc g1 g2 α β δ δ τ t s h2 h3
  rw [hk] at p2
  obtain ⟨p5, p6, p7⟩ := (p2 hrows).2 hγ hδ
  have hfit : w.FftFits (Nat.clog 2 (Qap.ofTrace t).rows.length) := by
    by_contra hc
    cases p7 hc
  have hmc : w.multicore = true ∨ 1 < (Qap.ofTrace t).m ∧ 0 < (Qap.ofTrace t).k := by
    by_contra hc
    push Not at hc
    obtain ⟨c1, c2⟩ := hc
    have c1 : w.multicore = false := by simpa using c1
    by_cases hm : (Qap.ofTrace t).m = 1
    · cases p5 c1 hm
    · have : 0 < (Qap.ofTrace t).m := by simp [Qap.ofTrace, Qap.ofRows]
      cases (p6 hfit).1 c1 (by have := c2 (by omega); omega)
  have hl' : ∀ i < (Qap.ofTrace t).k, ((Qap.ofTrace t).comb α β τ (.aux i) / δ) • g1 ≠ 0 := fun i hi =>
    hl _ (List.mem_map.2 ⟨i, List.mem_range.2 hi, rfl⟩)
  refine ⟨_, ((((p2' hrows).2 hδ hδ).2.1 hfit).2 hmc).2 hl', by simp [Qap.crs], fun xs hx => ?_⟩
  have := (C77_ratio E ((Qap.ofTrace t).crs g1 g2 α β δ δ τ).vk 1 xs).2 ⟨hx, .inl (one_smul _ _).symm⟩
  rwa [one_smul] at this

/-- C77: nor does it refuse `α = 0` or `β = 0`: whenever it succeeds, everybody can prove everything. -/
theorem C77_zero (E : Engine F G1 G2 GT) (w : Worker) (kc : Synth F Unit) (g1 : G1) (g2 : G2) (α β γ δ τ : F) (params : Parameters G1 G2)
    (hk : generateParameters w kc g1 g2 α β γ δ τ = Res.ok params) (h0 : α = 0 ∨ β = 0) (s : F) (xs : List F)
    (hx : xs.length + 1 = params.vk.ic.length) :
    verifyProof E (prepareVerifyingKey E params.vk)
      { a := params.vk.inputSum xs, b := params.vk.gammaG2 + s • params.vk.deltaG2, c := s • params.vk.inputSum xs } xs = some (.ok ()) := by
  obtain ⟨t, -, -, rfl, -⟩ := C29_crs w kc g1 g2 α β γ δ τ params hk
  refine (C77_identity E _ s xs).2 ⟨hx, h0.imp (fun h => ?_) fun h => ?_⟩
  · show α • g1 = 0
    rw [h, zero_smul]
  · show β • g2 = 0
    rw [h, zero_smul]

/-- A set of trapdoors in which one coordinate is determined by the others is small. -/
theorem ncard_determined (s : Set (Fin 5 → F)) (j : Fin 5)
    (h : ∀ x ∈ s, ∀ y ∈ s, (∀ i, i ≠ j → x i = y i) → x j = y j) : s.ncard ≤ p F ^ 4 := by
  have := PrimeField.finite (F := F)
  have hc : (Set.univ : Set (Fin 4 → F)).ncard = p F ^ 4 := by rw [Set.ncard_univ, Nat.card_fun, PrimeField.card_eq, Nat.card_fin]
  rw [← hc]
  refine Set.ncard_le_ncard_of_injOn (fun x i => x (j.succAbove i)) (fun _ _ => Set.mem_univ _) ?_ (Set.toFinite _)
  intro x hx y hy he
  have ho : ∀ i, i ≠ j → x i = y i := fun i hi => by
    obtain ⟨k, rfl⟩ := Fin.exists_succAbove_eq hi
    exact congrFun he k
  funext i
  by_cases hi : i = j
  · rw [hi]; exact h x hx y hy ho
  · exact ho i hi

/-- C77: of the trapdoors `generate_random_parameters` draws, at most the fraction `3/|F|` is of these kinds. -/
theorem C77_rare : ({x : Fin 5 → F | x 0 = 0 ∨ x 1 = 0 ∨ x 2 = x 3} : Set _).ncard ≤ 3 * p F ^ 4 := by
  have := PrimeField.finite (F := F)
  have h0 := ncard_determined (F := F) {x | x 0 = 0} 0 fun x hx y hy _ => hx.trans hy.symm
  have h1 := ncard_determined (F := F) {x | x 1 = 0} 1 fun x hx y hy _ => hx.trans hy.symm
  have h2 := ncard_determined (F := F) {x | x 2 = x 3} 2 fun x hx y hy h => hx.trans ((h 3 (by decide)).trans hy.symm)
  have e : ({x : Fin 5 → F | x 0 = 0 ∨ x 1 = 0 ∨ x 2 = x 3} : Set _) = {x | x 0 = 0} ∪ ({x | x 1 = 0} ∪ {x | x 2 = x 3}) := rfl
  rw [e]
  have u1 := Set.ncard_union_le ({x : Fin 5 → F | x 0 = 0}) ({x | x 1 = 0} ∪ {x | x 2 = x 3})
  have u2 := Set.ncard_union_le ({x : Fin 5 → F | x 1 = 0}) {x | x 2 = x 3}
  omega

/-- An assignment with the given public inputs and any values for the auxiliary variables. -/
def withInputs (xs : List F) (aux : ℕ → F) : Var → F
  | .input i => ((1 : F) :: xs).getD i 0
  | .aux i => aux i

/-- C77: whoever knows `τ`, and no other trapdoor, can prove every statement with any values for the auxiliary variables, from the parameters:
the quotient that does not exist as a polynomial exists as a number. -/
theorem C77_tau (E : Engine F G1 G2 GT) (w : Worker) (kc : Synth F Unit) (g1 : G1) (g2 : G2) (α β γ δ τ : F) (params : Parameters G1 G2)
    (hk : generateParameters w kc g1 g2 α β γ δ τ = Res.ok params) (t : List (Ev F)) (ht : KeyTrace kc t)
    (hm : 1 < (Qap.ofTrace t).m) (hτ : τ ^ (Qap.ofTrace t).m ≠ 1) (xs : List F) (hx : xs.length + 1 = params.vk.ic.length) (aux : ℕ → F) :
    let z := withInputs xs aux
    let a := ((Qap.ofTrace t).A z).eval τ
    let b := ((Qap.ofTrace t).B z).eval τ
    let c := ((Qap.ofTrace t).Cc z).eval τ
    verifyProof E (prepareVerifyingKey E params.vk)
      { a := params.vk.alphaG1 + a • g1
        b := params.vk.betaG2 + b • g2
        c := linSum aux params.l + ((a * b - c) / (τ ^ (Qap.ofTrace t).m - 1)) • params.h.getD 0 0 } xs = some (.ok ()) := by
  intro z a b c
  obtain ⟨t', ht', -, rfl, hγ, hδ, -, -⟩ := C29_crs w kc g1 g2 α β γ δ τ params hk
  cases ht.unique ht'
  refine (verifyProof_ok E _ _ _).2 ⟨hx, ?_⟩
  set q := Qap.ofTrace t with hq
  have hZ : q.Z.eval τ = τ ^ q.m - 1 := by simp [Qap.Z]
  have hne : τ ^ q.m - 1 ≠ 0 := sub_ne_zero.2 hτ
  have hp := (accepts_iff E q g1 g2 α β γ δ τ hγ hδ z z (Polynomial.C ((a * b - c) / (τ ^ q.m - 1))) 0 0 xs fun i _ => rfl).2 (by
    have e : (q.A z * q.B z - q.Cc z - Polynomial.C ((a * b - c) / (τ ^ q.m - 1)) * q.Z).eval τ = 0 := by
      simp only [eval_sub, eval_mul, eval_C, hZ]
      rw [div_mul_cancel₀ _ hne]
      exact sub_self _
    rw [e, sub_self, add_zero, zero_smul])
  have hpf : q.proof g1 g2 α β δ τ z (Polynomial.C ((a * b - c) / (τ ^ q.m - 1))) 0 0 =
      { a := (q.crs g1 g2 α β γ δ τ).vk.alphaG1 + a • g1
        b := (q.crs g1 g2 α β γ δ τ).vk.betaG2 + b • g2
        c := linSum aux (q.crs g1 g2 α β γ δ τ).l + ((a * b - c) / (τ ^ q.m - 1)) • (q.crs g1 g2 α β γ δ τ).h.getD 0 0 } := by
    have hl : linSum aux (q.crs g1 g2 α β γ δ τ).l = (q.priv α β τ z / δ) • g1 := by
      unfold linSum Qap.priv
      rw [show (q.crs g1 g2 α β γ δ τ).l.length = q.k by simp [Qap.crs], sum_div, sum_smul]
      refine sum_congr rfl fun i hi => ?_
      simp only [Qap.crs]
      rw [List.getD_eq_getElem?_getD, List.getElem?_map, List.getElem?_range (mem_range.1 hi)]
      simp only [Option.map_some, Option.getD_some, ← mul_smul]
      rw [mul_div_assoc]
      rfl
    have hh : (q.crs g1 g2 α β γ δ τ).h.getD 0 0 = (q.Z.eval τ / δ) • g1 := by
      simp only [Qap.crs]
      rw [List.getD_eq_getElem?_getD, List.getElem?_map, List.getElem?_range (by omega)]
      simp
    rw [hl, hh]
    unfold Qap.proof
    simp only [Qap.crs, ← add_smul, ← mul_smul, eval_C]
    congr 1
    · rw [zero_mul, add_zero]
    · rw [zero_mul, add_zero]
    · congr 1
      rw [hZ]
      field_simp
      ring
  rw [hpf] at hp
  exact hp

/-- The statement `[2]` of the circuit of `test_xordemo` is false. -/
theorem xor_two_false (ρ : Var → DummyFr) (h1 : ρ .one = 1) (h2 : ρ (.input 1) = 2) : ¬ Sat ρ (xorTrace none none none) := by
  rw [xor_sat h1, h2]
  rintro ⟨a, b, -, -, h⟩
  cases a <;> cases b <;> exact absurd h (by decide +kernel)

/-- Parameters of `test_xordemo` with `α = 0`. -/
theorem xq_generate_zero (w : Worker) : generateParameters w ((XorDemo.mk none none).synthesize (F := DummyFr)) (1 : DummyFr) (1 : DummyFr) 0 22580 53332 5481 3673 =
    Res.ok (xq.crs (1 : DummyFr) (1 : DummyFr) 0 22580 53332 5481 3673) := by
  rcases C29_outcome w ((XorDemo.mk none none).synthesize (F := DummyFr)) (1 : DummyFr) (1 : DummyFr) 0 22580 53332 5481 3673 _ (xor_key (F := DummyFr))
    (by rw [xor_rows, clog_five]; exact .inl (by norm_num)) (.inr ⟨by rw [xor_m]; norm_num, show 0 < 2 by norm_num⟩) with
    ⟨h, _⟩ | ⟨_, h, _⟩ | ⟨_, _, _, ⟨i, hi, h⟩, _⟩ | ⟨_, _, _, _, h⟩
  · rw [xor_rows] at h
    exact absurd h (by decide)
  · exact absurd h (by decide +kernel)
  · obtain ⟨⟨u0, u1, u2, u3⟩, ⟨v0, v1, v2, v3⟩, ⟨w0, w1, w2, w3⟩⟩ := xq_values
    replace hi : i < 2 := hi
    change (xq.comb 0 22580 3673 (.aux i) / 5481) • (1 : DummyFr) = 0 at h
    unfold Qap.comb at h
    interval_cases i
    · rw [u2, v2, w2] at h
      exact absurd h (by decide +kernel)
    · rw [u3, v3, w3] at h
      exact absurd h (by decide +kernel)
  · exact h

/-- C77, in the setup of the unit test `test_xordemo`: with `γ` set to the value of `δ`, with `α = 0`, or for whoever knows `τ`, the false statement
`[2]` is proved; with the trapdoors of the test the first two of these proofs are refused. -/
theorem C77_xor (w : Worker) :
    let E := fieldEngine DummyFr
    let forge (vk : VerifyingKey DummyFr DummyFr) : Proof DummyFr DummyFr :=
      { a := vk.alphaG1, b := vk.betaG2, c := -vk.inputSum [(2 : DummyFr)] }
    let forge' (vk : VerifyingKey DummyFr DummyFr) : Proof DummyFr DummyFr :=
      { a := vk.inputSum [(2 : DummyFr)], b := vk.gammaG2 + (1 : DummyFr) • vk.deltaG2, c := (1 : DummyFr) • vk.inputSum [(2 : DummyFr)] }
    (∀ ρ : Var → DummyFr, ρ .one = 1 → ρ (.input 1) = 2 → ¬ Sat ρ (xorTrace none none none)) ∧
    (∃ params, generateParameters w ((XorDemo.mk none none).synthesize (F := DummyFr)) (1 : DummyFr) (1 : DummyFr) 48577 22580 5481 5481 3673 = Res.ok params ∧
      verifyProof E (prepareVerifyingKey E params.vk) (forge params.vk) [2] = some (.ok ())) ∧
    (∃ params, generateParameters w ((XorDemo.mk none none).synthesize (F := DummyFr)) (1 : DummyFr) (1 : DummyFr) 0 22580 53332 5481 3673 = Res.ok params ∧
      verifyProof E (prepareVerifyingKey E params.vk) (forge' params.vk) [2] = some (.ok ())) ∧
    (∃ params, generateParameters w ((XorDemo.mk none none).synthesize (F := DummyFr)) (1 : DummyFr) (1 : DummyFr) 48577 22580 53332 5481 3673 = Res.ok params ∧
      verifyProof E (prepareVerifyingKey E params.vk) (forge params.vk) [2] ≠ some (.ok ()) ∧
      verifyProof E (prepareVerifyingKey E params.vk) (forge' params.vk) [2] ≠ some (.ok ()) ∧
      verifyProof E (prepareVerifyingKey E params.vk)
        { a := params.vk.alphaG1 + (59158 + 2 * 48317), b := params.vk.betaG2, c := (-(2 * 23320) / (3673 ^ 8 - 1)) * params.h.headD 0 } [2] =
          some (.ok ())) := by
  intro E forge forge'
  refine ⟨xor_two_false, ?_, ⟨_, xq_generate_zero w, C77_zero E w _ _ _ _ _ _ _ _ _ (xq_generate_zero w) (.inl rfl) 1 [2] rfl⟩,
    _, xq_generate w, ?_, ?_, ?_⟩
  · obtain ⟨weak, h1, h2, h3⟩ := C77_equal E w _ _ _ _ _ _ _ _ _ (xq_generate w)
    exact ⟨weak, h1, h3 [2] (by rw [h2]; rfl)⟩
  · intro h
    have := (C77_ratio E (xq.crs (1 : DummyFr) (1 : DummyFr) 48577 22580 53332 5481 3673).vk 1 [2]).1 (by rw [one_smul]; exact h)
    obtain ⟨_, _, hk, _, _, _, _, hic, _⟩ := C53_xor_test w w
    cases hk.symm.trans (xq_generate w)
    rcases this.2 with h | h
    · exact absurd h (by decide +kernel)
    · unfold VerifyingKey.inputSum at h
      rw [hic] at h
      exact absurd h (by decide +kernel)
  · intro h
    rcases ((C77_identity E (xq.crs (1 : DummyFr) (1 : DummyFr) 48577 22580 53332 5481 3673).vk 1 [2]).1 h).2 with h | h
    · exact absurd h (by decide +kernel)
    · exact absurd h (by decide +kernel)
  · have := C77_tau E w _ _ _ _ _ _ _ _ _ (xq_generate w) _ xor_key (by rw [xor_m]; norm_num)
      (by rw [xor_m]; decide +kernel) [2] rfl 0
    obtain ⟨⟨u0, u1, u2, u3⟩, ⟨v0, v1, v2, v3⟩, ⟨w0, w1, w2, w3⟩⟩ := xq_values
    have hA : (xq.A (withInputs [2] 0)).eval 3673 = 59158 + 2 * 48317 := by
      rw [Qap.A_eval_sum]
      show (∑ i ∈ Finset.range 2, _ * (xq.u (.input i)).eval 3673) + ∑ i ∈ Finset.range 2, _ * (xq.u (.aux i)).eval 3673 = _
      simp [Finset.sum_range_succ, u0, u1, withInputs]
    have hB : (xq.B (withInputs [2] 0)).eval 3673 = 0 := by
      rw [Qap.B_eval_sum]
      show (∑ i ∈ Finset.range 2, _ * (xq.v (.input i)).eval 3673) + ∑ i ∈ Finset.range 2, _ * (xq.v (.aux i)).eval 3673 = _
      simp [Finset.sum_range_succ, v0, v1, withInputs]
    have hC : (xq.Cc (withInputs [2] 0)).eval 3673 = 2 * 23320 := by
      unfold Qap.Cc
      simp only [eval_add, eval_finsetSum, eval_mul, eval_C]
      show (∑ i ∈ Finset.range 2, _ * (xq.w (.input i)).eval 3673) + ∑ i ∈ Finset.range 2, _ * (xq.w (.aux i)).eval 3673 = _
      simp [Finset.sum_range_succ, w0, w1, withInputs]
    have hm : (Qap.ofTrace (xorTrace (F := DummyFr) none none none)).m = 8 := xor_m
    simp only [hm] at this
    change verifyProof E _ ⟨_ + (xq.A (withInputs [2] 0)).eval 3673 • (1 : DummyFr), _ + (xq.B (withInputs [2] 0)).eval 3673 • (1 : DummyFr),
      linSum (0 : ℕ → DummyFr) _ + (((xq.A (withInputs [2] 0)).eval 3673 * (xq.B (withInputs [2] 0)).eval 3673 -
        (xq.Cc (withInputs [2] 0)).eval 3673) / _) • _⟩ _ = _ at this
    have hl : ∀ xs : List DummyFr, linSum (0 : ℕ → DummyFr) xs = 0 := fun xs => by simp [linSum]
    have hd : ∀ xs : List DummyFr, xs.getD 0 0 = xs.headD 0 := fun xs => by cases xs <;> rfl
    simp only [hA, hB, hC, hl, hd, mul_zero, zero_sub, zero_add, add_zero, smul_eq_mul, mul_one] at this
    exact this

end Bellman

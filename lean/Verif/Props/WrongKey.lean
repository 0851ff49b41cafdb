import Verif.Props.Knowledge
import Verif.Props.Domain
import Verif.Props.Fingerprint


/-!
# C71: proving with the key of another circuit
-/

namespace Bellman

open Polynomial PrimeField Finset EvaluationDomain

set_option linter.unusedSectionVars false

variable {F G G1 G2 GT : Type} [PrimeField F] [AddCommGroup G] [AddCommGroup G1] [AddCommGroup G2] [AddCommGroup GT] [Module F G] [Module F G1] [Module F G2]
  [Module F GT] [DecidableEq G] [DecidableEq G1] [DecidableEq G2] [DecidableEq GT]

/-- The quotient does not depend on the worker, and has one coefficient less than the domain has points. -/
theorem hCoeffs_unique (a b c : List F) (hab : a.length = b.length) (hac : a.length = c.length) :
    ∃ y : List F, y.length + 1 = 2 ^ Nat.clog 2 a.length ∧ ∀ (w : Worker) x, hCoeffs w a b c = some (.ok x) → x = y := by
  rcases fromCoeffs_cases (F := F) a with ⟨d, hd, wd, hle, hmin, hco, hom⟩ | ⟨hd, hgt⟩
  · obtain ⟨A, ⟨hA, va⟩, -⟩ := C23_interpolate d.omega (2 ^ d.exp) wd.prim a
    obtain ⟨B, ⟨hB, vb⟩, -⟩ := C23_interpolate d.omega (2 ^ d.exp) wd.prim b
    obtain ⟨Cc, ⟨hC, vc⟩, -⟩ := C23_interpolate d.omega (2 ^ d.exp) wd.prim c
    refine ⟨(List.range (2 ^ d.exp - 1)).map (hPoly (A * B - Cc) (2 ^ d.exp)).coeff, ?_, fun w x h => ?_⟩
    · rw [List.length_map, List.length_range, clog_of_bounds hle hmin]
      have := Nat.one_le_two_pow (n := d.exp)
      omega
    have hf : w.FftFits d.exp := by
      by_contra hf
      have hd2 : ∀ l : List F, l.length = a.length → ∃ d', fromCoeffs (F := F) l = some (.ok d') := by
        intro l hl
        rcases fromCoeffs_cases (F := F) l with ⟨d', hd', _⟩ | ⟨_, hgt⟩
        · exact ⟨d', hd'⟩
        · exfalso
          have h1 := wd.exp_lt
          have : 2 ^ d.exp ≤ 2 ^ (S F - 1) := Nat.pow_le_pow_right (by norm_num) (by omega)
          omega
      obtain ⟨d2, e2⟩ := hd2 b hab.symm
      obtain ⟨d3, e3⟩ := hd2 c hac.symm
      unfold hCoeffs at h
      rw [hd, e2, e3] at h
      have : d.ifft ((w.site 0).site 0) = none := ifft_none ((w.site 0).site 0) d hf
      simp only [Option.bind_eq_bind, Option.bind_some, toCoset] at h
      rw [this] at h
      cases h
    have e1 := hCoeffs_spec w a b c hab hac d hd hf A B Cc hA hB hC va vb vc
    rw [h] at e1
    simpa using e1
  · have := Nat.one_le_two_pow (n := Nat.clog 2 a.length)
    refine ⟨List.replicate (2 ^ Nat.clog 2 a.length - 1) 0, by rw [List.length_replicate]; omega, fun w x h => ?_⟩
    unfold hCoeffs at h
    rw [hd] at h
    cases h

/-- Coefficients placed from position `pos` on. -/
def shifted (pos : ℕ) (es : List F) (i : ℕ) : F := if pos ≤ i then es.getD (i - pos) 0 else 0

theorem linSum_shifted (pos : ℕ) (es : List F) (xs : List G) (h : pos + es.length ≤ xs.length ∨ es = []) :
    linSum (shifted pos es) xs = ∑ i ∈ range es.length, es.getD i 0 • xs.getD (pos + i) 0 := by
  unfold linSum
  rcases h with h | rfl
  · obtain ⟨k, hk⟩ : ∃ k, xs.length = pos + es.length + k := ⟨xs.length - (pos + es.length), by omega⟩
    rw [hk, Finset.sum_range_add, Finset.sum_range_add, Finset.sum_eq_zero (s := range pos), Finset.sum_eq_zero (s := range k)]
    · rw [zero_add, add_zero]
      refine sum_congr rfl fun i _ => ?_
      rw [shifted, if_pos (by omega), Nat.add_sub_cancel_left]
    · intro i _
      rw [shifted, if_pos (by omega), show pos + es.length + i - pos = es.length + i by omega, List.getD_eq_default _ _ (by omega), zero_smul]
    · intro i hi
      rw [shifted, if_neg (by have := mem_range.1 hi; omega), zero_smul]
  · simp [shifted]

theorem multiexp_linSum {w : Worker} {src : BaseSource G} {q : QueryDensity} {es : List F} {r : G}
    (h : multiexp F w src q (es.map Exponent.ofField) = some (.ok r)) : r = linSum (shifted src.pos (queried q es)) src.bases := by
  obtain ⟨_, hs, _, hr⟩ := C24_ok w src q es r h
  rw [hr, linSum_shifted]
  unfold Short at hs
  rcases Nat.eq_zero_or_pos (queried q es).length with h0 | h0
  · exact .inr (List.length_eq_zero_iff.1 h0)
  · exact .inl (by omega)

/-- The coefficients with which `create_proof` combines the elements of any parameters, given what it has recorded of the circuit, the
coefficients `hc` of the quotient and the blinding factors. -/
def proverStrategy (p : ProvingAssignment F) (hc : List F) (r s : F) : Strategy F :=
  let a : ℕ → F := fun i => shifted 0 p.inputAssignment i +
    shifted p.inputAssignment.length (queried (.tracker p.aAuxDensity) p.auxAssignment) i
  let b : ℕ → F := fun i => shifted 0 (queried (.tracker p.bInputDensity) p.inputAssignment) i +
    shifted p.bInputDensity.getTotalDensity (queried (.tracker p.bAuxDensity) p.auxAssignment) i
  { a := ⟨0, 1, 0, r, 0, 0, 0, a, 0⟩
    b := ⟨0, 1, 0, s, b⟩
    c := ⟨0, s, r, r * s, 0, shifted 0 hc, shifted 0 p.auxAssignment, fun i => s * a i, fun i => r * b i⟩ }

theorem linSum_add (c d : ℕ → F) (xs : List G) : linSum (fun i => c i + d i) xs = linSum c xs + linSum d xs := by
  unfold linSum
  rw [← sum_add_distrib]
  exact sum_congr rfl fun i _ => add_smul _ _ _

theorem linSum_mul (k : F) (c : ℕ → F) (xs : List G) : linSum (fun i => k * c i) xs = k • linSum c xs := by
  unfold linSum
  rw [smul_sum]
  exact sum_congr rfl fun i _ => mul_smul _ _ _

theorem linSum_zero (xs : List G) : linSum (0 : ℕ → F) xs = 0 := by
  unfold linSum
  simp

/-- C71: whatever the parameters, the proof `create_proof` returns combines their elements with coefficients that depend only on the
circuit, the witness and the blinding factors; those of the auxiliary elements in the third element are the auxiliary variables. -/
theorem C71_algebraic {pc : Synth F Unit} {t : List (Ev F)} (ht : ProverTrace pc t) (r s : F) :
    ∃ σ : Strategy F, (∀ xs, σ.extract xs = assign (1 :: xs) (auxVals t)) ∧
      ∀ (w : Worker) (params : Parameters G1 G2) (pf : Proof G1 G2), createProof w pc params r s = Res.ok pf →
        ∀ (g1 : G1) (g2 : G2), pf = σ.proof g1 g2 params := by
  classical
  by_cases hex : ∃ p w hc, assign? pc = Res.ok p ∧ hCoeffs w p.a p.b p.c = some (.ok hc)
  · obtain ⟨p, w0, hc, hp, hh⟩ := hex
    have ha := ht.assigned hp
    refine ⟨proverStrategy p hc r s, fun xs => ?_, ?_⟩
    · funext v
      cases v with
      | input i => rfl
      | aux i =>
        show shifted 0 p.auxAssignment i = (auxVals t).getD i 0
        rw [ha.aux]
        simp [shifted]
    · intro w params pf hok g1 g2
      obtain ⟨p', h, l, a1, a2, b1, b2, c1, c2, hp', hA, hδ1, hδ2⟩ := createProof_ok_inv hok
      cases hp.symm.trans hp'
      have hpf := createProof_ok_of w pc params r s p h l a1 a2 b1 b2 c1 c2 hp hA hδ1 hδ2
      rw [hok] at hpf
      cases hpf
      obtain ⟨hc', e0, e1⟩ := hA.h
      obtain ⟨y, -, hy⟩ := hCoeffs_unique p.a p.b p.c (by rw [ha.a, ha.b]; simp) (by rw [ha.a, ha.c]; simp)
      obtain rfl : hc = hc' := (hy _ _ hh).trans (hy _ _ e0).symm
      have e1 := multiexp_linSum e1
      have e2 := multiexp_linSum hA.l
      have e3 := multiexp_linSum hA.a1
      have e4 := multiexp_linSum hA.a2
      have e5 := multiexp_linSum hA.b1
      have e6 := multiexp_linSum hA.b2
      have e7 := multiexp_linSum hA.c1
      have e8 := multiexp_linSum hA.c2
      simp only [queried] at e1 e2 e3 e4 e5 e6 e7 e8
      unfold Strategy.proof proverStrategy Coeffs1.apply Coeffs2.apply
      simp only [linSum_add, linSum_mul, linSum_zero, queried, ← e1, ← e2, ← e3, ← e4, ← e5, ← e6, ← e7, ← e8]
      congr 1
      · module
      · module
      · module
  · refine ⟨{ a := ⟨0, 0, 0, 0, 0, 0, 0, 0, 0⟩, b := ⟨0, 0, 0, 0, 0⟩, c := ⟨0, 0, 0, 0, 0, 0, fun i => (auxVals t).getD i 0, 0, 0⟩ },
      fun xs => ?_, ?_⟩
    · funext v
      cases v <;> rfl
    · intro w params pf hok
      obtain ⟨p', h, l, a1, a2, b1, b2, c1, c2, hp', hA, hδ1, hδ2⟩ := createProof_ok_inv hok
      obtain ⟨hc', e0, e1⟩ := hA.h
      exact absurd ⟨p', _, hc', hp', e0⟩ hex

/-- C71: a proof made with the key of any circuit `kc` by the prover of any circuit `pc` is accepted for inputs `xs` only if `xs` and the
prover's auxiliary variables satisfy the constraints of `kc`, except at few trapdoors. -/
theorem C71_wrong_key (E : Engine F G1 G2 GT) {kc pc : Synth F Unit} {t0 t : List (Ev F)} (ht0 : KeyTrace kc t0) (ht : ProverTrace pc t)
    (r s : F) (xs : List F) :
    Sat (assign (1 :: xs) (auxVals t)) t0 ∨
    ({x : F × F × F × F × F | ∃ (w w' : Worker) (g1 : G1) (g2 : G2) (params : Parameters G1 G2) (pf : Proof G1 G2), g1 ≠ 0 ∧ g2 ≠ 0 ∧
        generateParameters w kc g1 g2 x.1 x.2.1 x.2.2.1 x.2.2.2.1 x.2.2.2.2 = Res.ok params ∧ createProof w' pc params r s = Res.ok pf ∧
        verifyProof E (prepareVerifyingKey E params.vk) pf xs = some (.ok ())} : Set _).ncard ≤
      (3 * (Qap.ofTrace t0).m + 1 + 2 * (numIn t0 + 1 + numAux t0) * ((Qap.ofTrace t0).m - 1)) * p F ^ 4 := by
  have := PrimeField.finite (F := F)
  obtain ⟨σ, hσ, hpf⟩ := C71_algebraic (G1 := G1) (G2 := G2) ht r s
  rcases C42_knowledge E ht0 xs σ with h | h
  · exact .inl (by rwa [← hσ])
  · refine .inr ((Set.ncard_le_ncard ?_ (Set.toFinite _)).trans h)
    rintro x ⟨w, w', g1, g2, params, pf, h1, h2, hk, hp, hv⟩
    exact ⟨w, g1, g2, params, h1, h2, hk, by rw [← hpf w' params pf hp g1 g2]; exact hv⟩

/-- C71: `create_proof` returns a proof only if the parameters have room for everything the prover has recorded. -/
theorem C71_room {pc : Synth F Unit} {t : List (Ev F)} (ht : ProverTrace pc t) {w : Worker} {params : Parameters G1 G2} {r s : F}
    {pf : Proof G1 G2} (h : createProof w pc params r s = Res.ok pf) :
    numAux t ≤ params.l.length ∧ numIn t + 1 ≤ params.a.length ∧ (Qap.ofTrace t).m ≤ params.h.length + 1 := by
  obtain ⟨p, h, l, a1, a2, b1, b2, c1, c2, hp, hA, hδ1, hδ2⟩ := createProof_ok_inv h
  have ha := ht.assigned hp
  have hl := (C24_ok _ _ _ _ _ hA.l).2.1
  have ha1 := (C24_ok _ _ _ _ _ hA.a1).2.1
  obtain ⟨hc, e0, e1⟩ := hA.h
  have hh := (C24_ok _ _ _ _ _ e1).2.1
  simp only [Short, queried, not_lt, Nat.sub_zero] at hl ha1 hh
  refine ⟨by rwa [ha.aux, ha.nAux] at hl, by rwa [ha.inputs, List.length_cons, ha.nIn] at ha1, ?_⟩
  obtain ⟨y, hy, hyu⟩ := hCoeffs_unique p.a p.b p.c (by rw [ha.a, ha.b]; simp) (by rw [ha.a, ha.c]; simp)
  rw [← hyu _ _ e0, ha.a, List.length_map] at hy
  have hm : (Qap.ofTrace t).m = hc.length + 1 := hy.symm
  omega

theorem qapScope_of_scoped {t : List (Ev F)} (h : Scoped 1 0 t) : (Qap.ofTrace t).InScope := by
  intro r hr x hx
  have hr : r ∈ consOf t ++ inputRows (numIn t + 1) := hr
  show x.1.InRange (numIn t + 1) (numAux t)
  rcases List.mem_append.1 hr with hr | hr
  · have := h.consOf r hr x hx
    rwa [Nat.add_comm 1, Nat.zero_add] at this
  · obtain ⟨i, hi, rfl⟩ := List.mem_map.1 hr
    simp only [List.append_nil, List.mem_singleton] at hx
    subst hx
    exact List.mem_range.1 hi

/-- C71: a key serves every circuit with the same constraint matrices: if the prover of `pc` returns a proof with the key of `kc` and its
witness satisfies its own constraints, the proof is accepted. -/
theorem C71_same_matrices (E : Engine F G1 G2 GT) (w w' : Worker) {kc pc : Synth F Unit} {t0 t : List (Ev F)} (ht0 : KeyTrace kc t0)
    (ht : ProverTrace pc t) (hsc : Scoped 1 0 t) (h : (Qap.ofTrace t).SameMatrices (Qap.ofTrace t0)) (g1 : G1) (g2 : G2) (α β γ δ τ r s : F)
    (params : Parameters G1 G2) (pf : Proof G1 G2) (hk : generateParameters w kc g1 g2 α β γ δ τ = Res.ok params)
    (hp : createProof w' pc params r s = Res.ok pf) (hsat : Sat (witness t) t) :
    verifyProof E (prepareVerifyingKey E params.vk) pf (inVals t) = some (.ok ()) := by
  obtain ⟨t1, ht1, _, hpar, hγ, hδ, _, hsm⟩ := C29_crs w kc g1 g2 α β γ δ τ params hk
  cases ht1.unique ht0
  rw [← h.crs (Qap.ω_eq h.m)] at hpar
  subst hpar
  obtain ⟨p, _, _, _, _, _, _, _, _, hassign, _⟩ := createProof_ok_inv hp
  have hs : (Qap.ofTrace t).InScope := qapScope_of_scoped hsc
  obtain ⟨hR, hsm', _, rfl⟩ := createProof_ok hassign (ht.assigned hassign) hs hp
  have hlen : ((Qap.ofTrace t).crs g1 g2 α β γ δ τ).vk.ic.length = numIn t + 1 := by simp [Qap.crs]; rfl
  refine (verifyProof_ok E _ _ _).2 ⟨by rw [hlen, ht.inputs_len], ?_⟩
  refine (accepts_iff E _ g1 g2 α β γ δ τ hγ hδ (witness t) (witness t) _ r s _ fun i _ => rfl).2 ?_
  have hg := Qap.ofTrace_good t hsm'
  rw [Qap.proverH_sat hg hs _ (satBy_of_sat.2 hsat)]
  simp

/-! Concrete cases. -/

theorem twin_prover (c x : F) : ProverTrace (twin c (some x)) (twinTrace c (some x)) where
  exec := .allocRun _ _ rfl (.enforce (.ret _))
  numbered := ⟨rfl, trivial⟩

theorem twin_no_sat : ¬ Sat (assign (1 :: []) (auxVals (twinTrace (1 : F) (some 1)))) (twinTrace 2 none) := by
  rw [twin_sat]
  intro h
  have h : (1 : F) * 1 = 2 * 1 := h
  have : (1 : F) = 0 := by linear_combination -h
  exact one_ne_zero this

/-- A prover who knows that `1² = 1` cannot use the key of the circuit `x² = 2 x`, except at few trapdoors. -/
example (E : Engine F G1 G2 GT) (r s : F) :
    ({x : F × F × F × F × F | ∃ (w w' : Worker) (g1 : G1) (g2 : G2) (params : Parameters G1 G2) (pf : Proof G1 G2), g1 ≠ 0 ∧ g2 ≠ 0 ∧
        generateParameters w (twin 2 none) g1 g2 x.1 x.2.1 x.2.2.1 x.2.2.2.1 x.2.2.2.2 = Res.ok params ∧
        createProof w' (twin 1 (some 1)) params r s = Res.ok pf ∧
        verifyProof E (prepareVerifyingKey E params.vk) pf [] = some (.ok ())} : Set _).ncard ≤ 11 * p F ^ 4 := by
  have h := (C71_wrong_key E (twin_key 2) (twin_prover 1 1) r s []).resolve_left twin_no_sat
  have hm : (Qap.ofTrace (twinTrace (2 : F) none)).m = 2 := by
    rw [Qap.ofTrace_m, show (Qap.ofTrace (twinTrace (2 : F) none)).rows.length = 2 from rfl]; rfl
  rw [hm] at h
  exact h

/-- A prover of `x² = x` can use the key of the same circuit written otherwise. -/
example (E : Engine F G1 G2 GT) (w w' : Worker) (g1 : G1) (g2 : G2) (α β γ δ τ r s : F) (params : Parameters G1 G2) (pf : Proof G1 G2)
    (hk : generateParameters w wordy g1 g2 α β γ δ τ = Res.ok params) (hp : createProof w' (twin 1 (some 1)) params r s = Res.ok pf) :
    verifyProof E (prepareVerifyingKey E params.vk) pf [] = some (.ok ()) :=
  C71_same_matrices E w w' wordy_key (twin_prover 1 1) ⟨by simp [Var.InRange], trivial⟩ wordy_same g1 g2 α β γ δ τ r s params pf hk hp
    ((twin_sat _ _ _).2 (by show (1 : F) * 1 = 1 * 1; rfl))

end Bellman

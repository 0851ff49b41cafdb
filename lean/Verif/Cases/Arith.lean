import Verif.Props.Domain
import Verif.Props.DomainOps
import Verif.Props.Multiexp
import Verif.Props.MultiexpOps
import Verif.Props.Multicore
import Verif.Props.CoreTests
import Verif.Props.DummyEngine

/-!
# Concrete cases of the theorems on transforms, multi-exponentiations and work distribution (C20 to C27, C56, C69, C74, C78)
-/

set_option linter.unusedSectionVars false

namespace Bellman.Cases

open PrimeField Polynomial EvaluationDomain CoreTests

/-- Three threads, tasks completing out of order. -/
private def w3 : Worker := ⟨true, 3, by norm_num, fun _ => [2, 0, 1, 1]⟩
/-- One thread. -/
private def w1 : Worker := ⟨false, 1, by norm_num, fun _ => []⟩

/-! ### C20 -/

/-- The domain of four elements on `[5, 6, 7, 0]`. -/
private theorem four : ∃ d : EvaluationDomain DummyFr DummyFr, fromCoeffs ([5, 6, 7] : List DummyFr) = some (.ok d) ∧ Built d ∧
    d.coeffs = [5, 6, 7, 0] ∧ d.exp = 2 ∧ d.coeffs.length < 2 ^ 32 ∧ IsPrimitiveRoot d.omega (2 ^ 2) := by
  obtain ⟨d, h1, h2, h3⟩ := dummy_domain3
  have hb : Built d := ⟨_, d, h1, rfl, rfl⟩
  exact ⟨d, h1, hb, h2, h3, by rw [h2]; norm_num, h3 ▸ hb.wf.prim⟩

example : ∃ omega : DummyFr, serialFft ([5, 6, 7, 8] : List DummyFr) omega 2 =
    some ((List.range 4).map fun i => polyVal (omega ^ i) ([5, 6, 7, 8] : List DummyFr)) ∧
    parallelFft w3 ([5, 6, 7, 8] : List DummyFr) omega 2 1 =
    some ((List.range 4).map fun i => polyVal (omega ^ i) ([5, 6, 7, 8] : List DummyFr)) := by
  obtain ⟨d, -, -, -, -, -, hp⟩ := four
  exact ⟨d.omega, C20_serial d.omega 2 (by norm_num) hp _ rfl, C20_parallel w3 d.omega 2 1 (by norm_num) (by norm_num) hp _ rfl⟩

/-- An exponent that does not fit, and a list of the wrong length: both panic. -/
example (l : List DummyFr) : serialFft l (3 : DummyFr) 33 = none ∧ parallelFft w3 l (3 : DummyFr) 33 1 = none :=
  C20_too_long w3 3 33 1 l (by norm_num)
example : serialFft ([1, 2, 3] : List DummyFr) (3 : DummyFr) 2 = none := C20_wrong_length 3 2 _ (by norm_num) (by decide)

/-! ### C21 -/

example (omega : DummyFr) (l : List DummyFr) :
    bestFft w3 l omega 5 = bestFft ⟨true, 3, by norm_num, fun _ => [0, 0, 2]⟩ l omega 5 :=
  C21_schedule w3 ⟨true, 3, by norm_num, fun _ => [0, 0, 2]⟩ rfl rfl omega 5 l

/-! ### C22 -/

example : ∃ d d' : EvaluationDomain DummyFr DummyFr, d.coeffs = [5, 6, 7, 0] ∧ d.fft w3 = some d' ∧ d'.ifft w1 = some d := by
  obtain ⟨d, -, hb, hc, -, hl, -⟩ := four
  obtain ⟨d', h, -, h'⟩ := C22_ifft_fft w3 w1 d hb hl
  exact ⟨d, d', hc, h, h'⟩
example : ∃ d d' : EvaluationDomain DummyFr DummyFr, d.coeffs = [5, 6, 7, 0] ∧ d.ifft w3 = some d' ∧ d'.fft w1 = some d := by
  obtain ⟨d, -, hb, hc, -, hl, -⟩ := four
  obtain ⟨d', h, -, h'⟩ := C22_fft_ifft w3 w1 d hb hl
  exact ⟨d, d', hc, h, h'⟩
example : ∃ d d' : EvaluationDomain DummyFr DummyFr, d.coeffs = [5, 6, 7, 0] ∧ d.icosetFft w3 = some d' ∧ d'.cosetFft w1 = some d := by
  obtain ⟨d, -, hb, hc, -, hl, -⟩ := four
  obtain ⟨d', h, -, h'⟩ := C22_coset_icoset w3 w1 d hb hl
  exact ⟨d, d', hc, h, h'⟩
example : ∃ d : EvaluationDomain DummyFr DummyFr, (d.cosetFft w3).map (·.coeffs) =
    some ((List.range 4).map fun i => polyVal (MULTIPLICATIVE_GENERATOR * d.omega ^ i) ([5, 6, 7, 0] : List DummyFr)) := by
  obtain ⟨d, -, hb, hc, -, hl, -⟩ := four
  exact ⟨d, by rw [C22_coset_fft w3 d hb hl, hc]; rfl⟩

/-! ### C23 -/

example : ∃ (d : EvaluationDomain DummyFr DummyFr) (zi : DummyFr),
    (∀ i, zi * ((MULTIPLICATIVE_GENERATOR * d.omega ^ i) ^ 4 - 1) = 1) ∧
    (d.divideByZOnCoset w3).map (·.coeffs) = some [zi * 5, zi * 6, zi * 7, zi * 0] := by
  obtain ⟨d, -, hb, hc, -⟩ := four
  obtain ⟨zi, h1, h2⟩ := C23_divide w3 d hb
  rw [hc] at h1 h2
  exact ⟨d, zi, h1, by rw [h2]; rfl⟩
example : ∃ d : EvaluationDomain DummyFr DummyFr, (d.mulAssign w3 d).map (·.coeffs) = some [25, 36, 49, 0] ∧
    d.subAssign w3 { d with coeffs := [1] } = none := by
  obtain ⟨d, -, hb, hc, -⟩ := four
  refine ⟨d, ?_, (C23_pointwise w3 d { d with coeffs := [1] } d hb).2.2.2 (by simp [hc])⟩
  rw [(C23_pointwise w3 d d d hb).1 rfl, hc]
  exact congrArg some (by decide +kernel : List.zipWith (fun x y : DummyFr => y • x) [5, 6, 7, 0] [5, 6, 7, 0] = [25, 36, 49, 0])

/-- Constraints that do not hold (the last product is 29, not 28): there is a remainder, and the returned coefficients contain it. -/
example : ∃ Q R : DummyFr[X], hCoeffs w3 ([5, 6, 7] : List DummyFr) [2, 3, 4] [10, 18, 29] =
    some (.ok ((List.range 3).map fun i => Q.coeff i + ((MULTIPLICATIVE_GENERATOR : DummyFr) ^ 4 - 1)⁻¹ * R.coeff i)) := by
  obtain ⟨d, h1, hb, hc, -, hl, -⟩ := four
  have h4 : d.coeffs.length = 4 := by rw [hc]; rfl
  have hp := hb.wf.prim
  rw [← hb.wf.len] at hp
  obtain ⟨A, ⟨hA, va⟩, _⟩ := C23_interpolate d.omega _ hp [5, 6, 7]
  obtain ⟨B, ⟨hB, vb⟩, _⟩ := C23_interpolate d.omega _ hp [2, 3, 4]
  obtain ⟨Cc, ⟨hC, vc⟩, _⟩ := C23_interpolate d.omega _ hp [10, 18, 29]
  have hm : (X ^ d.coeffs.length - 1 : DummyFr[X]).Monic := monic_X_pow_sub_C 1 (by rw [h4]; norm_num)
  have h := C23_general w3 ([5, 6, 7] : List DummyFr) [2, 3, 4] [10, 18, 29] rfl rfl d h1 hl A B Cc
    ((A * B - Cc) /ₘ (X ^ d.coeffs.length - 1)) ((A * B - Cc) %ₘ (X ^ d.coeffs.length - 1)) hA hB hC va vb vc
    ((degree_modByMonic_lt _ hm).trans_eq (by
      rw [degree_eq_natDegree hm.ne_zero]; exact congrArg _ (natDegree_X_pow_sub_C (n := d.coeffs.length) (r := (1 : DummyFr)))))
    (by rw [add_comm]; exact (modByMonic_add_div _ _).symm)
  rw [h4] at h
  exact ⟨_, _, h⟩

/-! ### C78 -/

example : (transformCost 1 4).muls + 1 * 2 ^ 3 = (serialCost 4).muls + 2 ^ 5 := C78_overhead 4 1 (by norm_num)
example : (taskCost 4 1).muls < (serialCost 4).muls := C78_gain 4 1 (by norm_num) (by norm_num) (by norm_num)
example (a : List DummyFr) (omega : DummyFr) : (bestFftC w1 a omega 2).run 0 =
    (bestFft w1 a omega 2).map fun r => (r, 0 + (serialCost 2 + ⟨2 ^ 2, 2 ^ 2, 2 * 2 ^ 2, 3, 0⟩)) :=
  C78_one_thread w1 (.inl rfl) a omega 2 (by norm_num) 0

/-! ### C24, C25, C74 -/

/-- The second of four bases is skipped, the last one is the identity but has exponent 0. -/
private abbrev srcB : BaseSource BlsScalar := ⟨[9, 7, 5, 0], 1⟩
private abbrev denB : QueryDensity := .tracker ⟨[true, false, true, true]⟩
private abbrev expB : List BlsScalar := [3, 11, 1, 0]

private theorem notShort : ¬ Short srcB denB expB := by simp [Short, queried]
private theorem noIdentity : ∀ i e, IdentityAt srcB denB expB i e → e = 0 := by
  rintro i e ⟨h1, h2⟩
  simp only [queried, List.zip_cons_cons, List.zip_nil_left, List.filterMap_cons, List.filterMap_nil, if_true] at h1
  rcases i with _ | _ | _ | i
  · simp at h2; exact absurd h2 (by decide +kernel)
  · simp at h2; exact absurd h2 (by decide +kernel)
  · simpa using h1.symm
  · simp at h1

/-- Every window width gives the sum. -/
example (c : ℕ) (h0 : 0 < c) (h64 : c < 64) : multiexpInner BlsScalar w3 srcB denB (expB.map Exponent.ofField) c =
    some (.ok (3 * 7 + 1 * 5)) := by
  rw [C24_window w3 srcB denB expB c h0 h64 notShort noIdentity]
  simp [queried, Finset.sum_range_succ]

example : ∃ r, multiexp BlsScalar w3 srcB denB (expB.map Exponent.ofField) = some (.ok r) ∧ Fits denB expB.length ∧ ¬ Short srcB denB expB := by
  obtain ⟨r, h⟩ := (C25_ok w3 srcB denB expB (by norm_num) rfl).2 ⟨notShort, noIdentity⟩
  obtain ⟨h1, h2, -⟩ := C24_ok w3 srcB denB expB r h
  exact ⟨r, h, h1, h2⟩

example : (∃ r, multiexp BlsScalar w3 srcB denB (expB.map Exponent.ofField) = some (.ok r)) ∨
    multiexp BlsScalar w3 srcB denB (expB.map Exponent.ofField) = some (.error (.ioError .unexpectedEof)) ∨
    multiexp BlsScalar w3 srcB denB (expB.map Exponent.ofField) = some (.error .unexpectedIdentity) :=
  C25_total w3 srcB denB expB (by norm_num) rfl

example : multiexp DummyFr w3 ⟨([7] : List DummyFr), 0⟩ (.tracker ⟨[true]⟩) [] = none :=
  C25_size_mismatch w3 _ ⟨[true]⟩ [] (by decide)
example (e : Exponent) : multiexp DummyFr w3 ⟨([7] : List DummyFr), 0⟩ .full (List.replicate (2 ^ 32) e) = none :=
  C25_length_limit w3 _ _ List.length_replicate

/-- Forty bases: the bound on the number of group operations. -/
example : ∃ o : MeOps, o.baseAdds + o.adds + o.doubles ≤ windows DummyFr (windowSize 40) * (5 * 40) := by
  have h := C74_count w3 _ _ _ _ (C24_full w3 (List.replicate 40 (1 : DummyFr)) (List.replicate 40 (5 : DummyFr)) 0 (by simp) (by simp)
    (by decide +kernel))
  have h40 : (List.replicate 40 (5 : DummyFr)).length = 40 := List.length_replicate
  have := (C74_total w3 _ _ _ _ _ (by rw [h40]; norm_num) (by rw [h40]; norm_num) h).1
  rw [h40] at this
  exact ⟨_, this⟩

/-! ### C27 -/

example : ∃ cs, chunks? (w3.chunkSize 7) [1, 2, 3, 4, 5, 6, 7] = some cs ∧ cs.flatten = [1, 2, 3, 4, 5, 6, 7] := by
  obtain ⟨cs, h1, h2, -⟩ := C27_chunks w3 [1, 2, 3, 4, 5, 6, 7] (.inl rfl)
  exact ⟨cs, h1, h2⟩

/-- A loop that carries a running square: the same in chunks as in one go. -/
example : w3.forChunks 5 (fun chunk i c => loopTask (i * chunk) (fun p x => (x + p * p, p + 1)) c) Prod.fst [10, 10, 10, 10, 10] =
    some [10, 11, 14, 19, 26] :=
  C27_loop w3 [10, 10, 10, 10, 10] (fun p => p) (fun p x => (x + p * p, p + 1)) (fun _ _ => rfl) (.inl rfl)

example : ∃ d : EvaluationDomain DummyFr DummyFr, (d.distributePowers w3 (2 : DummyFr)).map (·.coeffs) = some [5, 12, 28, 0] ∧
    (d.subAssign w3 d).map (·.coeffs) = some [0, 0, 0, 0] := by
  obtain ⟨d, -, hb, hc, -⟩ := four
  refine ⟨d, ?_, ?_⟩
  · rw [C27_distribute_powers w3 d 2 (by simp [hc]), hc]
    exact congrArg some (by decide +kernel : [5, 6, 7, 0].mapIdx (fun i (x : DummyFr) => (2 : DummyFr) ^ i • x) = [5, 12, 28, 0])
  · rw [(C27_pointwise w3 d d d (by simp [hc])).2 rfl, hc]
    exact congrArg some (by decide +kernel : List.zipWith (fun x y : DummyFr => x - y) [5, 6, 7, 0] [5, 6, 7, 0] = [0, 0, 0, 0])

/-! ### C56, C69 -/

example : {next : BitVec 32 | (Dummy.Fr.random next).num = 14320}.ncard = 66576 ∧
    {next : BitVec 32 | (Dummy.Fr.random next).num = 14321}.ncard = 66575 :=
  ⟨(C56_random 14320 (by norm_num)).1, (C56_random 14321 (by norm_num)).1⟩

/-- The test of 2^9 random elements passes, that of 2^10 cannot. -/
example (v : List DummyFr) (v' : List DummyFr) (h : v.length = 2 ^ 9) (h' : v'.length = 2 ^ 10) :
    parallelFftConsistency (parallelFft w3) v 9 = some () ∧ parallelFftConsistency (parallelFft w3) v' 10 ≠ some () :=
  ⟨(C69_parallel_fft (by decide) w3 v 9 h).2 (by decide), fun e => absurd ((C69_parallel_fft (by decide) w3 v' 10 h').1 e) (by decide)⟩

end Bellman.Cases

import Verif.Proofs.Quotient
import Verif.FieldInstances

/-!
# C19 to C23: evaluation domains and the quotient polynomial
-/

set_option linter.unusedSectionVars false

namespace Bellman

open PrimeField EvaluationDomain Polynomial

variable {F T : Type} [PrimeField F] [AddCommGroup T] [Module F T]

/-! ## Specification -/

/-- Value of the polynomial with coefficient list `l` (constant term first) at `x`, by Horner's rule. The coefficients may be
scalars or group elements. -/
def polyVal (x : F) : List T → T
  | [] => 0
  | a :: l => a + x • polyVal x l

theorem polyVal_eq (x : F) (l : List T) : polyVal x l = valAt l.length (fun t => l.getD t 0) x := by
  unfold valAt
  induction l with
  | nil => rfl
  | cons a l ih =>
    rw [polyVal, ih, List.length_cons, Finset.sum_range_succ', Finset.smul_sum, add_comm]
    simp only [List.getD_cons_succ, List.getD_cons_zero, pow_zero, one_smul]
    congr 1
    refine Finset.sum_congr rfl fun t _ => ?_
    rw [smul_smul, ← pow_succ']

/-- A domain as user code can hold one: made by `from_coeffs`, possibly with the entries (not their number) changed since,
by the operations of src/domain.rs or through `as_mut`. -/
def Built (d : EvaluationDomain F T) : Prop :=
  ∃ l d₀, (fromCoeffs l : Option (Except SynthesisError (EvaluationDomain F T))) = some (.ok d₀) ∧
    d.coeffs.length = d₀.coeffs.length ∧ d = { d₀ with coeffs := d.coeffs }

theorem Built.wf {d : EvaluationDomain F T} (h : Built d) : d.WF := by
  obtain ⟨l, d₀, h1, h2, h3⟩ := h
  rcases fromCoeffs_cases (F := F) l with ⟨d', e, hw, _⟩ | ⟨e, _⟩
  · rw [h1] at e
    cases e
    rw [h3]
    exact hw.with_coeffs _ h2
  · rw [h1] at e; cases e

theorem Built.with_coeffs {d : EvaluationDomain F T} (h : Built d) (v : List T) (hv : v.length = d.coeffs.length) :
    Built { d with coeffs := v } := by
  obtain ⟨l, d₀, h1, h2, h3⟩ := h
  refine ⟨l, d₀, h1, hv.trans h2, ?_⟩
  rw [h3]

theorem Built.exp_lt {d : EvaluationDomain F T} (h : Built d) (hl : d.coeffs.length < 2 ^ 32) : d.exp < 32 := by
  rw [h.wf.len] at hl
  exact (Nat.pow_lt_pow_iff_right (by norm_num)).1 hl

/-! ## C19 -/

/-- C19: `from_coeffs` never panics; it either pads with zeros to the least power of two `m` not below the length, with `m` at
most `2^(S-1)`, an `m`-th primitive root of unity and correct inverses, or returns `PolynomialDegreeTooLarge`. -/
theorem C19_from_coeffs (l : List T) :
    (∃ d : EvaluationDomain F T, fromCoeffs l = some (.ok d) ∧
      IsLeast {m | (∃ e, m = 2 ^ e) ∧ l.length ≤ m} d.coeffs.length ∧
      d.coeffs.length ≤ 2 ^ (S F - 1) ∧
      d.coeffs = l ++ List.replicate (d.coeffs.length - l.length) 0 ∧
      d.coeffs.length = 2 ^ d.exp ∧
      IsPrimitiveRoot d.omega d.coeffs.length ∧
      d.omegainv * d.omega = 1 ∧ d.geninv * MULTIPLICATIVE_GENERATOR = 1 ∧ d.minv * (d.coeffs.length : F) = 1) ∨
    fromCoeffs (F := F) l = some (.error .polynomialDegreeTooLarge) := by
  rcases fromCoeffs_cases (F := F) l with ⟨d, e, hw, hle, hmin, hc, ho⟩ | ⟨e, _⟩
  · left
    have hlen := hw.len
    refine ⟨d, e, ⟨⟨⟨d.exp, hlen⟩, by rw [hlen]; exact hle⟩, ?_⟩, ?_, by rw [hlen]; exact hc, hlen, by rw [hlen]; exact hw.prim,
      hw.omegainv, hw.geninv, by rw [hlen]; push_cast; exact hw.minv⟩
    · rintro _ ⟨⟨k, rfl⟩, hk⟩
      rw [hlen]
      rcases hmin with h | h
      · rw [h]; exact Nat.one_le_two_pow
      · have : d.exp - 1 < k := (Nat.pow_lt_pow_iff_right (by norm_num)).1 (lt_of_lt_of_le h hk)
        exact Nat.pow_le_pow_right (by norm_num) (by omega)
    · rw [hlen]
      exact Nat.pow_le_pow_right (by norm_num) (by have := hw.exp_lt; omega)
  · right; exact e

/-- C19: the refusal happens exactly for more than `2^(S-1)` coefficients. -/
theorem C19_refused (l : List T) :
    fromCoeffs (F := F) l = some (.error .polynomialDegreeTooLarge) ↔ 2 ^ (S F - 1) < l.length := by
  rcases fromCoeffs_cases (F := F) l with ⟨d, e, hw, hle, _⟩ | ⟨e, h⟩
  · rw [e]
    have : 2 ^ d.exp ≤ 2 ^ (S F - 1) := Nat.pow_le_pow_right (by norm_num) (by have := hw.exp_lt; omega)
    constructor
    · intro h; cases h
    · intro h; omega
  · exact ⟨fun _ => h, fun _ => e⟩

/-- C19 is not vacuous: three coefficients over the dummy field (`S = 10`) give a domain of four. -/
theorem dummy_domain3 : ∃ d : EvaluationDomain DummyFr DummyFr, fromCoeffs ([5, 6, 7] : List DummyFr) = some (.ok d) ∧
    d.coeffs = [5, 6, 7, 0] ∧ d.exp = 2 := by
  rcases C19_from_coeffs (F := DummyFr) ([5, 6, 7] : List DummyFr) with ⟨d, e, hl, _, hc, hexp, _⟩ | e
  · have h4 : d.coeffs.length = 4 := by
      apply le_antisymm
      · exact hl.2 ⟨⟨2, rfl⟩, by decide⟩
      · obtain ⟨⟨k, hk⟩, h3⟩ := hl.1
        rw [hk] at h3 ⊢
        have h3' : 3 ≤ 2 ^ k := h3
        rcases k with _ | _ | k
        · omega
        · omega
        · rw [pow_succ, pow_succ]; have := Nat.one_le_two_pow (n := k); omega
    refine ⟨d, e, ?_, ?_⟩
    · rw [hc, h4]; rfl
    · rw [h4] at hexp
      exact (Nat.pow_right_injective (le_refl 2) (show 2 ^ 2 = 2 ^ d.exp from hexp)).symm
  · rw [C19_refused] at e
    exact absurd e (by decide)

/-! ## C20 -/

/-- C20: `fft` replaces the coefficients by the values at `omega^i`, for every worker (thread count and schedule). The length
bound is the `u32` length of `serial_fft`; it holds for every domain when `S ≤ 32`. -/
theorem C20_fft (w : Worker) (d : EvaluationDomain F T) (hd : Built d) (hl : d.coeffs.length < 2 ^ 32) :
    d.fft w = some { d with coeffs := (List.range d.coeffs.length).map fun i => polyVal (d.omega ^ i) d.coeffs } := by
  rw [fft_eq w d hd.wf (.inl (hd.exp_lt hl))]
  simp only [dftList, polyVal_eq]

/-- C20: the serial code on any `2^L`-element slice. -/
theorem C20_serial (omega : F) (L : ℕ) (hL : L < 32) (hw : IsPrimitiveRoot omega (2 ^ L)) (l : List T)
    (hl : l.length = 2 ^ L) :
    serialFft l omega L = some ((List.range (2 ^ L)).map fun i => polyVal (omega ^ i) l) := by
  have hr := Rep.getD l (0 : T)
  rw [hl] at hr
  obtain ⟨a', h1, h2⟩ := serialFft_spec omega _ L l hr hL fun h => prim_half hw h
  rw [h1, h2.eq_map]
  simp only [polyVal_eq, hl]

/-- C20: the parallel code, for every number `2^c ≤ 2^L` of sub-transforms. -/
theorem C20_parallel (w : Worker) (omega : F) (L c : ℕ) (hc : c ≤ L) (hL : L - c < 32) (hw : IsPrimitiveRoot omega (2 ^ L))
    (l : List T) (hl : l.length = 2 ^ L) :
    parallelFft w l omega L c = some ((List.range (2 ^ L)).map fun i => polyVal (omega ^ i) l) := by
  have hr := Rep.getD l (0 : T)
  rw [hl] at hr
  obtain ⟨a', h1, h2⟩ := parallelFft_spec w omega _ L c hc hL l hr (fun h => prim_half hw h) hw.pow_eq_one
  rw [h1, h2.eq_map]
  simp only [polyVal_eq, hl]

/-- C20, limit: on a slice of `2^32` or more elements per sub-transform the assertion on the `u32` length fails. -/
theorem C20_too_long (w : Worker) (omega : F) (L c : ℕ) (l : List T) (hL : 32 ≤ L - c) :
    serialFft l omega L = none ∧ parallelFft w l omega L c = none :=
  ⟨serialFft_large omega L l (by omega), parallelFft_large w omega L c l hL⟩

/-- C20: the serial code refuses (panics on) a slice whose length is not the announced power of two, instead of computing something
else. -/
theorem C20_wrong_length (omega : F) (L : ℕ) (l : List T) (hl : l.length < 2 ^ 32) (hne : l.length ≠ 2 ^ L) : serialFft l omega L = none := by
  unfold serialFft
  rw [Nat.mod_eq_of_lt hl]
  simp [guard, Nat.one_shiftLeft, hne]

/-- C20: domains over a field with two-adicity at most 32 (such as BLS12-381's) never reach the limit. -/
theorem C20_length_bound (hS : S F ≤ 32) (d : EvaluationDomain F T) (hd : Built d) : d.coeffs.length < 2 ^ 32 := by
  rw [hd.wf.len]
  exact Nat.pow_lt_pow_right (by norm_num) (by have := hd.wf.exp_lt; omega)

/-- The hypotheses hold for the domain of `dummy_domain3`, and for every domain over the BLS12-381 scalar field. -/
example (w : Worker) : ∃ d : EvaluationDomain DummyFr DummyFr, Built d ∧ d.coeffs.length = 4 ∧
    d.fft w = some { d with coeffs := (List.range 4).map fun i => polyVal (d.omega ^ i) [5, 6, 7, 0] } := by
  obtain ⟨d, h1, h2, _⟩ := dummy_domain3
  have hb : Built d := ⟨_, d, h1, rfl, rfl⟩
  have hl : d.coeffs.length = 4 := by rw [h2]; rfl
  refine ⟨d, hb, hl, ?_⟩
  rw [C20_fft w d hb (by rw [hl]; norm_num), hl, h2]

example (w : Worker) (d : EvaluationDomain BlsScalar BlsScalar) (hd : Built d) : (d.fft w).isSome := by
  rw [C20_fft w d hd (C20_length_bound (by decide) d hd)]; rfl

/-! ## C21 -/

/-- C21: the schedule never matters: two workers with the same thread count and arbitrary schedules give the same outcome
(also the same panics) on every input, even without any assumption on `omega` and the length. -/
theorem C21_schedule (w w' : Worker) (hm : w.multicore = w'.multicore) (ht : w.threads = w'.threads) (omega : F) (L : ℕ)
    (l : List T) : bestFft w l omega L = bestFft w' l omega L := by
  have hlog : w.logNumThreads = w'.logNumThreads := by unfold Worker.logNumThreads; rw [hm, ht]
  have hchunk : ∀ n, (w.site 1).chunkSize n = (w'.site 1).chunkSize n := by
    intro n; unfold Worker.chunkSize Worker.site; simp only [hm, ht]
  unfold bestFft parallelFft Worker.forChunks
  simp only [Worker.runTasks_eq, hlog, hchunk]

/-- C21: nor does the number of threads. -/
theorem C21_threads (w w' : Worker) (omega : F) (L : ℕ) (hL : L < 32) (hw : IsPrimitiveRoot omega (2 ^ L)) (l : List T)
    (hl : l.length = 2 ^ L) : bestFft w l omega L = bestFft w' l omega L := by
  rw [bestFft_eq w omega L l (.inl hL) hl hw, bestFft_eq w' omega L l (.inl hL) hl hw]

/-- The scheduling fact behind C21 and C27, in general form: however the steps of the spawned tasks are interleaved, the
outcome is that of running the tasks one after the other. -/
theorem C21_interleaving {σ : Type} (sch : List ℕ) (ts : List (Task σ)) : runSched sch ts = ts.mapM Task.run :=
  runSched_eq sch ts

/-- Non-vacuity: one thread against five threads with a schedule that starts in the middle, on the dummy field. -/
example : ∃ d : EvaluationDomain DummyFr DummyFr, Built d ∧ d.coeffs = [5, 6, 7, 0] ∧
    bestFft ⟨true, 5, by norm_num, fun _ => [2, 0, 2, 1, 3, 3, 0]⟩ d.coeffs d.omega d.exp =
      bestFft ⟨true, 1, by norm_num, fun _ => []⟩ d.coeffs d.omega d.exp := by
  obtain ⟨d, h1, h2, h3⟩ := dummy_domain3
  have hb : Built d := ⟨_, d, h1, rfl, rfl⟩
  refine ⟨d, hb, h2, C21_threads _ _ _ _ (by rw [h3]; norm_num) hb.wf.prim _ (by rw [h2, h3]; rfl)⟩

/-! ## C22 -/

/-- C22: `ifft` undoes `fft`. -/
theorem C22_ifft_fft (w w' : Worker) (d : EvaluationDomain F T) (hd : Built d) (hl : d.coeffs.length < 2 ^ 32) :
    ∃ d', d.fft w = some d' ∧ Built d' ∧ d'.ifft w' = some d := by
  have h32 {w : Worker} : w.FftFits d.exp := .inl (hd.exp_lt hl)
  have hb := hd.with_coeffs (dftList d.omega d.coeffs) (dftList_length _ _)
  refine ⟨_, fft_eq w d hd.wf h32, hb, ?_⟩
  rw [ifft_eq w' _ hb.wf h32]
  simp only
  rw [hd.wf.omegainv_eq, ifft_fft_list d.omega d.minv d.exp hd.wf.prim hd.wf.minv d.coeffs hd.wf.len,
    ← hd.wf.omegainv_eq]

/-- C22: `fft` undoes `ifft`. -/
theorem C22_fft_ifft (w w' : Worker) (d : EvaluationDomain F T) (hd : Built d) (hl : d.coeffs.length < 2 ^ 32) :
    ∃ d', d.ifft w = some d' ∧ Built d' ∧ d'.fft w' = some d := by
  have h32 {w : Worker} : w.FftFits d.exp := .inl (hd.exp_lt hl)
  have hb := hd.with_coeffs ((dftList d.omegainv d.coeffs).map fun x => d.minv • x) (by simp [dftList_length])
  refine ⟨_, ifft_eq w d hd.wf h32, hb, ?_⟩
  rw [fft_eq w' _ hb.wf h32]
  simp only
  rw [hd.wf.omegainv_eq, fft_ifft_list d.omega d.minv d.exp hd.wf.prim hd.wf.minv d.coeffs hd.wf.len,
    ← hd.wf.omegainv_eq]

/-- C22: `coset_fft` gives the values at `g·omega^i`. -/
theorem C22_coset_fft (w : Worker) (d : EvaluationDomain F T) (hd : Built d) (hl : d.coeffs.length < 2 ^ 32) :
    d.cosetFft w = some { d with coeffs :=
      (List.range d.coeffs.length).map fun i => polyVal (MULTIPLICATIVE_GENERATOR * d.omega ^ i) d.coeffs } := by
  rw [cosetFft_eq w d hd.wf (.inl (hd.exp_lt hl))]
  congr 2
  apply ext_getD
  · simp [dftList_length]
  · intro i hi
    have hi' : i < d.coeffs.length := by simpa [dftList_length] using hi
    rw [coset_getD _ _ _ _ hi', ← polyVal_eq]
    simp [hi']

/-- C22: `icoset_fft` undoes `coset_fft`. -/
theorem C22_icoset_coset (w w' : Worker) (d : EvaluationDomain F T) (hd : Built d) (hl : d.coeffs.length < 2 ^ 32) :
    ∃ d', d.cosetFft w = some d' ∧ Built d' ∧ d'.icosetFft w' = some d := by
  have h32 {w : Worker} : w.FftFits d.exp := .inl (hd.exp_lt hl)
  have hb := hd.with_coeffs (dftList d.omega (d.coeffs.mapIdx fun i x => (MULTIPLICATIVE_GENERATOR : F) ^ i • x))
    (by simp [dftList_length])
  refine ⟨_, cosetFft_eq w d hd.wf h32, hb, ?_⟩
  rw [icosetFft_eq w' _ hb.wf h32]
  simp only
  rw [hd.wf.omegainv_eq, ifft_fft_list d.omega d.minv d.exp hd.wf.prim hd.wf.minv _ (by simpa using hd.wf.len),
    mapIdx_pow_cancel _ _ hd.wf.geninv, ← hd.wf.omegainv_eq]

/-- C22: `coset_fft` undoes `icoset_fft`. -/
theorem C22_coset_icoset (w w' : Worker) (d : EvaluationDomain F T) (hd : Built d) (hl : d.coeffs.length < 2 ^ 32) :
    ∃ d', d.icosetFft w = some d' ∧ Built d' ∧ d'.cosetFft w' = some d := by
  have h32 {w : Worker} : w.FftFits d.exp := .inl (hd.exp_lt hl)
  have hb := hd.with_coeffs (((dftList d.omegainv d.coeffs).map fun x => d.minv • x).mapIdx fun i x => d.geninv ^ i • x)
    (by simp [dftList_length])
  refine ⟨_, icosetFft_eq w d hd.wf h32, hb, ?_⟩
  rw [cosetFft_eq w' _ hb.wf h32]
  simp only
  rw [mapIdx_pow_cancel _ _ (by rw [mul_comm]; exact hd.wf.geninv), hd.wf.omegainv_eq,
    fft_ifft_list d.omega d.minv d.exp hd.wf.prim hd.wf.minv d.coeffs hd.wf.len, ← hd.wf.omegainv_eq]

/-- Non-vacuity of C22, on the domain of `dummy_domain3`. -/
example (w w' : Worker) : ∃ d d' : EvaluationDomain DummyFr DummyFr, Built d ∧ d.coeffs = [5, 6, 7, 0] ∧
    d.cosetFft w = some d' ∧ d'.icosetFft w' = some d := by
  obtain ⟨d, h1, h2, _⟩ := dummy_domain3
  have hb : Built d := ⟨_, d, h1, rfl, rfl⟩
  obtain ⟨d', e1, _, e2⟩ := C22_icoset_coset w w' d hb (by rw [h2]; norm_num)
  exact ⟨d, d', hb, h2, e1, e2⟩

/-! ## C23 -/

/-- C23: `divide_by_z_on_coset` never panics, and divides every entry by the value of `X^m - 1` at each coset point. -/
theorem C23_divide (w : Worker) (d : EvaluationDomain F T) (hd : Built d) :
    ∃ zi : F, (∀ i, zi * ((MULTIPLICATIVE_GENERATOR * d.omega ^ i) ^ d.coeffs.length - 1) = 1) ∧
      d.divideByZOnCoset w = some { d with coeffs := d.coeffs.map fun x => zi • x } := by
  refine ⟨_, fun i => ?_, divideByZ_eq w d hd.wf⟩
  have h1 : (MULTIPLICATIVE_GENERATOR * d.omega ^ i) ^ d.coeffs.length = (MULTIPLICATIVE_GENERATOR : F) ^ d.coeffs.length := by
    rw [mul_pow, ← pow_mul, Nat.mul_comm, pow_mul, hd.wf.len, hd.wf.prim.pow_eq_one, one_pow, mul_one]
  rw [h1]
  exact inv_mul_cancel₀ (z_gen_ne_zero d hd.wf)

/-- C23: `mul_assign` and `sub_assign` are pointwise (and panic exactly on different lengths). -/
theorem C23_pointwise (w : Worker) (d o : EvaluationDomain F T) (s : EvaluationDomain F F) (hd : Built d) :
    (d.coeffs.length = s.coeffs.length →
      d.mulAssign w s = some { d with coeffs := List.zipWith (fun x y => y • x) d.coeffs s.coeffs }) ∧
    (d.coeffs.length = o.coeffs.length →
      d.subAssign w o = some { d with coeffs := List.zipWith (fun x y => x - y) d.coeffs o.coeffs }) ∧
    (d.coeffs.length ≠ s.coeffs.length → d.mulAssign w s = none) ∧
    (d.coeffs.length ≠ o.coeffs.length → d.subAssign w o = none) := by
  refine ⟨fun h => mulAssign_eq w d s h hd.wf.pos, fun h => subAssign_eq w d o h hd.wf.pos, fun h => ?_, fun h => ?_⟩
  · unfold EvaluationDomain.mulAssign; rw [zipChunks_len _ _ _ _ h]; rfl
  · unfold EvaluationDomain.subAssign; rw [zipChunks_len _ _ _ _ h]; rfl

/-- Every vector of values on the domain belongs to exactly one polynomial of degree below the size. -/
theorem C23_interpolate (w : F) (m : ℕ) (hw : IsPrimitiveRoot w m) (v : List F) :
    ∃! P : F[X], P.degree < m ∧ ∀ i < m, P.eval (w ^ i) = v.getD i 0 := by
  have hinj : Set.InjOn (fun i => w ^ i) (Finset.range m : Set ℕ) := by
    intro i hi j hj hij
    exact hw.pow_inj (by simpa using hi) (by simpa using hj) hij
  refine ⟨Lagrange.interpolate (Finset.range m) (fun i => w ^ i) (fun i => v.getD i 0), ⟨?_, fun i hi => ?_⟩, ?_⟩
  · have := Lagrange.degree_interpolate_lt (r := fun i => v.getD i 0) hinj
    simpa using this
  · exact Lagrange.eval_interpolate_at_node (fun i => v.getD i 0) hinj (Finset.mem_range.2 hi)
  · rintro Q ⟨h1, h2⟩
    refine poly_eq_of_domain w m hw Q _ h1 ?_ fun i hi => ?_
    · have := Lagrange.degree_interpolate_lt (r := fun i => v.getD i 0) hinj
      simpa using this
    · rw [h2 i hi]
      exact (Lagrange.eval_interpolate_at_node (fun i => v.getD i 0) hinj (Finset.mem_range.2 hi)).symm

/-- C23: the pipeline of `create_proof` on vectors with `a_i b_i = c_i`: it returns exactly the coefficients of the polynomial
`Q` with `A·B - C = (X^m - 1)·Q`, without the (zero) coefficients from `m - 1` on. `A`, `B`, `C` are the polynomials of degree
below `m` with the given values on the domain (`C23_interpolate`). -/
theorem C23_quotient (w : Worker) (a b c : List F) (hab : a.length = b.length) (hac : a.length = c.length)
    (hsat : ∀ i < a.length, a.getD i 0 * b.getD i 0 = c.getD i 0)
    (d : EvaluationDomain F F) (hd : fromCoeffs a = some (.ok d)) (hl : d.coeffs.length < 2 ^ 32) (A B Cc : F[X])
    (hA : A.degree < d.coeffs.length) (hB : B.degree < d.coeffs.length) (hC : Cc.degree < d.coeffs.length)
    (va : ∀ i < d.coeffs.length, A.eval (d.omega ^ i) = a.getD i 0)
    (vb : ∀ i < d.coeffs.length, B.eval (d.omega ^ i) = b.getD i 0)
    (vc : ∀ i < d.coeffs.length, Cc.eval (d.omega ^ i) = c.getD i 0) :
    ∃ Q : F[X], A * B - Cc = (X ^ d.coeffs.length - 1) * Q ∧ (∀ i, d.coeffs.length - 1 ≤ i → Q.coeff i = 0) ∧
      hCoeffs w a b c = some (.ok ((List.range (d.coeffs.length - 1)).map Q.coeff)) := by
  have hb : Built d := ⟨a, d, hd, rfl, rfl⟩
  have hlen := hb.wf.len
  have h32 {w : Worker} : w.FftFits d.exp := .inl (hb.exp_lt hl)
  have hprim := hb.wf.prim
  rw [← hlen] at hprim
  have hpos := hb.wf.pos
  have spec := hCoeffs_spec w a b c hab hac d hd h32 A B Cc (by rw [← hlen]; exact hA) (by rw [← hlen]; exact hB)
    (by rw [← hlen]; exact hC) (by rw [← hlen]; exact va) (by rw [← hlen]; exact vb) (by rw [← hlen]; exact vc)
  rw [← hlen] at spec
  set m := d.coeffs.length with hm
  -- the remainder vanishes
  have hrem : rem (A * B - Cc) m = 0 := by
    refine poly_eq_of_domain d.omega m hprim _ _ (rem_degree _ m hpos) (by simpa using WithBot.bot_lt_coe m) fun i hi => ?_
    have h0 : (A * B - Cc).eval (d.omega ^ i) = 0 := by
      rw [eval_sub, eval_mul, va i hi, vb i hi, vc i hi]
      by_cases h : i < a.length
      · rw [hsat i h, sub_self]
      · simp [show a.length ≤ i by omega, show c.length ≤ i by omega]
    rw [← rem_add_quo (A * B - Cc) m] at h0
    have hz : (d.omega ^ i) ^ m = 1 := by rw [← pow_mul, Nat.mul_comm, pow_mul, hprim.pow_eq_one, one_pow]
    simpa [hz] using h0
  refine ⟨quo (A * B - Cc) m, ?_, fun i hi => ?_, ?_⟩
  · have := rem_add_quo (A * B - Cc) m
    rw [hrem, zero_add] at this
    exact this.symm
  · by_cases hq : quo (A * B - Cc) m = 0
    · rw [hq, coeff_zero]
    · apply coeff_eq_zero_of_natDegree_lt
      have h1 := rem_add_quo (A * B - Cc) m
      rw [hrem, zero_add] at h1
      have h2 := natDegree_mul (monic_Z (F := F) m hpos).ne_zero hq
      rw [h1, natDegree_Z] at h2
      have h3 := natDegree_mul_sub hA hB hC
      omega
  · rw [spec]
    unfold hPoly
    rw [hrem]
    simp

/-- C23, unsatisfied vectors: what the pipeline returns in general, in terms of quotient and remainder of `A·B - C` by
`X^m - 1`. It is used to bound the acceptance of invalid assignments (C33). -/
theorem C23_general (w : Worker) (a b c : List F) (hab : a.length = b.length) (hac : a.length = c.length)
    (d : EvaluationDomain F F) (hd : fromCoeffs a = some (.ok d)) (hl : d.coeffs.length < 2 ^ 32) (A B Cc Q R : F[X])
    (hA : A.degree < d.coeffs.length) (hB : B.degree < d.coeffs.length) (hC : Cc.degree < d.coeffs.length)
    (va : ∀ i < d.coeffs.length, A.eval (d.omega ^ i) = a.getD i 0)
    (vb : ∀ i < d.coeffs.length, B.eval (d.omega ^ i) = b.getD i 0)
    (vc : ∀ i < d.coeffs.length, Cc.eval (d.omega ^ i) = c.getD i 0)
    (hR : R.degree < d.coeffs.length) (hdiv : A * B - Cc = (X ^ d.coeffs.length - 1) * Q + R) :
    hCoeffs w a b c = some (.ok ((List.range (d.coeffs.length - 1)).map fun i =>
      Q.coeff i + ((MULTIPLICATIVE_GENERATOR : F) ^ d.coeffs.length - 1)⁻¹ * R.coeff i)) := by
  have hb : Built d := ⟨a, d, hd, rfl, rfl⟩
  have hlen := hb.wf.len
  have h32 {w : Worker} : w.FftFits d.exp := .inl (hb.exp_lt hl)
  have hpos := hb.wf.pos
  have spec := hCoeffs_spec w a b c hab hac d hd h32 A B Cc (by rw [← hlen]; exact hA) (by rw [← hlen]; exact hB)
    (by rw [← hlen]; exact hC) (by rw [← hlen]; exact va) (by rw [← hlen]; exact vb) (by rw [← hlen]; exact vc)
  rw [← hlen] at spec
  set m := d.coeffs.length
  have hdeg : (X ^ m - 1 : F[X]).degree = m := by
    rw [degree_eq_natDegree (monic_Z (F := F) m hpos).ne_zero, natDegree_Z]
  obtain ⟨hq, hr⟩ := div_modByMonic_unique Q R (monic_Z (F := F) m hpos) ⟨(add_comm _ _).trans hdiv.symm, by rw [hdeg]; exact hR⟩
  rw [spec]
  congr 2
  refine List.map_congr_left fun i _ => ?_
  unfold hPoly quo rem
  rw [hq, hr, coeff_add, coeff_C_mul]

/-- Non-vacuity of C23: three constraints with `a_i b_i = c_i` on the dummy field; the pipeline returns three coefficients. -/
example (w : Worker) : ∃ h : List DummyFr, h.length = 3 ∧
    hCoeffs w ([5, 6, 7] : List DummyFr) [2, 3, 4] [10, 18, 28] = some (.ok h) := by
  obtain ⟨d, h1, h2, _⟩ := dummy_domain3
  have hb : Built d := ⟨_, d, h1, rfl, rfl⟩
  have hl : d.coeffs.length = 4 := by rw [h2]; rfl
  have hp := hb.wf.prim
  rw [← hb.wf.len] at hp
  obtain ⟨A, ⟨hA, va⟩, _⟩ := C23_interpolate d.omega _ hp [5, 6, 7]
  obtain ⟨B, ⟨hB, vb⟩, _⟩ := C23_interpolate d.omega _ hp [2, 3, 4]
  obtain ⟨Cc, ⟨hC, vc⟩, _⟩ := C23_interpolate d.omega _ hp [10, 18, 28]
  obtain ⟨Q, _, _, hQ⟩ := C23_quotient w [5, 6, 7] [2, 3, 4] [10, 18, 28] rfl rfl (by decide +kernel) d h1
    (by rw [hl]; norm_num) A B Cc hA hB hC va vb vc
  exact ⟨_, by simp [hl], hQ⟩

end Bellman

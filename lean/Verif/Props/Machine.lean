import Verif.Proofs.Machine
import Verif.Props.Domain
import Verif.Props.Multiexp
import Verif.Props.Multicore

/-!
# C84: sizes and indices fit machine integers, in every build
-/

set_option linter.unusedSectionVars false

namespace Bellman

open PrimeField EvaluationDomain

variable {F T G : Type} [PrimeField F] [AddCommGroup T] [Module F T] [AddCommGroup G] [Module F G] [DecidableEq G]

/-! ### Specification -/

/-- C84: what the operations on machine words are.  A sum or product that fits is exact; one that does not fit ends a debug build
with a panic and is reduced in a release build; shifting by less than the width multiplies by a power of two and drops what does not fit. -/
theorem C84_words (b : Build) (w x y : ℕ) :
    (x + y < 2 ^ w → b.add w x y = some (x + y)) ∧ (x * y < 2 ^ w → b.mul w x y = some (x * y)) ∧
      (y ≤ x → b.sub w x y = some (x - y)) ∧ (y < w → b.shl w x y = some (x * 2 ^ y % 2 ^ w) ∧ b.shr w x y = some (x / 2 ^ y)) ∧
      (2 ^ w ≤ x + y → Build.debug.add w x y = none ∧ Build.release.add w x y = some ((x + y) % 2 ^ w)) ∧
      (2 ^ w ≤ x * y → Build.debug.mul w x y = none ∧ Build.release.mul w x y = some (x * y % 2 ^ w)) ∧
      (x < y → y ≤ 2 ^ w → Build.debug.sub w x y = none ∧ ∃ z, Build.release.sub w x y = some z ∧ z < 2 ^ w ∧ z + y = x + 2 ^ w) ∧
      (w ≤ y → Build.debug.shl w x y = none ∧ Build.debug.shr w x y = none) := by
  refine ⟨b.add_lt, b.mul_lt, b.sub_le, fun h => ⟨?_, ?_⟩, fun h => ⟨?_, ?_⟩, fun h => ⟨?_, ?_⟩, fun h h' => ⟨?_, ?_⟩, fun h => ⟨?_, ?_⟩⟩
  · unfold Build.shl
    rw [if_pos h, Nat.shiftLeft_eq]
  · unfold Build.shr
    rw [if_pos h, Nat.shiftRight_eq_div_pow]
  all_goals try unfold Build.add Build.fit
  all_goals try unfold Build.mul Build.fit
  all_goals try unfold Build.shl
  all_goals try unfold Build.shr
  all_goals try rw [if_neg (by omega)]
  · unfold Build.sub
    rw [if_neg (by omega)]
  · refine ⟨x + 2 ^ w - y, ?_, by omega, by omega⟩
    unfold Build.sub
    rw [if_neg (by omega), Nat.mod_eq_of_lt (by omega)]

/-! ### src/multicore.rs -/

/-- C84: `log2_floor` of a `usize` is the logarithm below `2^63`; from there on it does not return: it panics or loops. -/
theorem C84_log2_floor (b : Build) (n : ℕ) :
    (0 < n → n < 2 ^ 63 → ∃ k, log2FloorW b n = some k ∧ 2 ^ k ≤ n ∧ n < 2 ^ (k + 1)) ∧
      (n = 0 ∨ 2 ^ 63 ≤ n → log2FloorW b n = none) := by
  refine ⟨fun h h' => ?_, ?_⟩
  · rw [log2FloorW_eq b n h']
    exact (C27_log2_floor n).2 h
  · rintro (rfl | h)
    · rfl
    · unfold log2FloorW
      rw [if_pos (by omega), log2FloorLoopW_stuck b n h]

/-! ### src/domain.rs -/

/-- C84: building a domain does not overflow: for every vector of at most `2^63` elements (more than a `Vec` can have) the machine
computes what the unbounded model does. -/
theorem C84_from_coeffs (b : Build) (l : List T) (hl : l.length ≤ 2 ^ 63) :
    (fromCoeffsW b l : Option (Except SynthesisError (EvaluationDomain F T))) = fromCoeffs l :=
  fromCoeffsW_eq b l hl

/-- C84: `serial_fft` computes in `u32`; on every input, in every build, it does what the unbounded model does, panics included. -/
theorem C84_serial_fft (b : Build) (l : List T) (omega : F) (L : ℕ) : serialFftW b l omega L = serialFft l omega L :=
  serialFftW_eq b l omega L

/-- C84: the transforms of a domain do not overflow, with any number of threads below `2^63`. -/
theorem C84_transforms (b : Build) (w : Worker) (hw : w.multicore = true → w.threads < 2 ^ 63) (d : EvaluationDomain F T) (hd : Built d)
    (hl : d.coeffs.length < 2 ^ 64) :
    d.fftW b w = d.fft w ∧ d.ifftW b w = d.ifft w ∧ d.cosetFftW b w = d.cosetFft w ∧ d.icosetFftW b w = d.icosetFft w :=
  ⟨fftW_eq b w hw d hd.wf hl, ifftW_eq b w hw d hd.wf hl, cosetFftW_eq b w hw d hd.wf hl, icosetFftW_eq b w hw d hd.wf hl⟩

/-- C84: so the machine evaluates the polynomial at all powers of `omega`. -/
theorem C84_fft (b : Build) (w : Worker) (hw : w.multicore = true → w.threads < 2 ^ 63) (d : EvaluationDomain F T) (hd : Built d)
    (hl : d.coeffs.length < 2 ^ 32) :
    d.fftW b w = some { d with coeffs := (List.range d.coeffs.length).map fun i => polyVal (d.omega ^ i) d.coeffs } := by
  rw [(C84_transforms b w hw d hd (by omega)).1, C20_fft w d hd hl]

/-- C84: and the four transforms of the machine undo each other, whatever builds and workers ran them. -/
theorem C84_inverse (b b' : Build) (w w' : Worker) (hw : w.multicore = true → w.threads < 2 ^ 63) (hw' : w'.multicore = true → w'.threads < 2 ^ 63) (d : EvaluationDomain F T)
    (hd : Built d) (hl : d.coeffs.length < 2 ^ 32) :
    (∃ d', d.fftW b w = some d' ∧ d'.ifftW b' w' = some d) ∧ (∃ d', d.ifftW b w = some d' ∧ d'.fftW b' w' = some d) ∧
      (∃ d', d.cosetFftW b w = some d' ∧ d'.icosetFftW b' w' = some d) ∧
      ∃ d', d.icosetFftW b w = some d' ∧ d'.cosetFftW b' w' = some d := by
  obtain ⟨h1, h2, h3, h4⟩ := C84_transforms b w hw d hd (by omega)
  have hlen : ∀ d' : EvaluationDomain F T, Built d' → d'.exp = d.exp → d'.coeffs.length < 2 ^ 64 := fun d' h e => by
    rw [h.wf.len, e, ← hd.wf.len]; omega
  have h32 {w : Worker} : w.FftFits d.exp := .inl (hd.exp_lt hl)
  rw [h1, h2, h3, h4]
  refine ⟨?_, ?_, ?_, ?_⟩
  · obtain ⟨d', e1, hb, e2⟩ := C22_ifft_fft w w' d hd hl
    have he : d'.exp = d.exp := by rw [fft_eq w d hd.wf h32] at e1; cases e1; rfl
    exact ⟨d', e1, by rw [(C84_transforms b' w' hw' d' hb (hlen d' hb he)).2.1, e2]⟩
  · obtain ⟨d', e1, hb, e2⟩ := C22_fft_ifft w w' d hd hl
    have he : d'.exp = d.exp := by rw [ifft_eq w d hd.wf h32] at e1; cases e1; rfl
    exact ⟨d', e1, by rw [(C84_transforms b' w' hw' d' hb (hlen d' hb he)).1, e2]⟩
  · obtain ⟨d', e1, hb, e2⟩ := C22_icoset_coset w w' d hd hl
    have he : d'.exp = d.exp := by rw [cosetFft_eq w d hd.wf h32] at e1; cases e1; rfl
    exact ⟨d', e1, by rw [(C84_transforms b' w' hw' d' hb (hlen d' hb he)).2.2.2, e2]⟩
  · obtain ⟨d', e1, hb, e2⟩ := C22_coset_icoset w w' d hd hl
    have he : d'.exp = d.exp := by rw [icosetFft_eq w d hd.wf h32] at e1; cases e1; rfl
    exact ⟨d', e1, by rw [(C84_transforms b' w' hw' d' hb (hlen d' hb he)).2.2.1, e2]⟩

/-- The hypotheses hold for four coefficients over the dummy field: a debug build with five threads undoes a release build with one. -/
example : ∃ d d' : EvaluationDomain DummyFr DummyFr, fromCoeffsW .debug ([5, 6, 7] : List DummyFr) = some (.ok d) ∧
    d.coeffs = [5, 6, 7, 0] ∧ d.fftW .release ⟨true, 1, by norm_num, fun _ => []⟩ = some d' ∧
    d'.ifftW .debug ⟨true, 5, by norm_num, fun _ => [2, 0, 2, 1, 3, 3, 0]⟩ = some d := by
  obtain ⟨d, h1, h2, _⟩ := dummy_domain3
  have hb : Built d := ⟨_, d, h1, rfl, rfl⟩
  obtain ⟨d', e1, e2⟩ := (C84_inverse .release .debug ⟨true, 1, by norm_num, fun _ => []⟩
    ⟨true, 5, by norm_num, fun _ => [2, 0, 2, 1, 3, 3, 0]⟩ (by norm_num) (by norm_num) d hb (by rw [h2]; norm_num)).1
  exact ⟨d, d', by rw [C84_from_coeffs .debug _ (by simp), h1], h2, e1, e2⟩

/-- Six threads are between `2^2` and `2^3`, and a number of threads with the highest bit set is too much. -/
example : log2FloorW .release 6 = some 2 ∧ log2FloorW .release (2 ^ 63) = none ∧ log2Floor (2 ^ 63) = some 63 := by
  refine ⟨?_, (C84_log2_floor .release _).2 (.inr le_rfl), ?_⟩
  · obtain ⟨k, h, h1, h2⟩ := (C84_log2_floor .release 6).1 (by norm_num) (by norm_num)
    rw [h]
    rcases k with _ | _ | _ | k
    · norm_num at h2
    · norm_num at h2
    · rfl
    · have : 2 ^ 3 ≤ 2 ^ (k + 1 + 1 + 1) := Nat.pow_le_pow_right (by norm_num) (by omega)
      omega
  · rw [log2Floor_spec _ (by norm_num), Nat.log_pow (by norm_num)]

/-! ### src/multiexp.rs -/

/-- C84: `multiexp` does not overflow on any input: windows and buckets fit `u64` and `usize`. -/
theorem C84_multiexp (b : Build) (w : Worker) (src : BaseSource G) (q : QueryDensity) (exps : List Exponent) :
    multiexpW F b w src q exps = multiexp F w src q exps := by
  unfold multiexpW multiexp
  simp only [multiexpInnerW_eq F b w src q exps _ (windowSize_lt _)]
  rfl

/-- C84: every window size below 64 gives the same sum in both builds, so the result does not depend on how the logarithm of the window
size is rounded. -/
theorem C84_window (b : Build) (w : Worker) (src : BaseSource G) (q : QueryDensity) (es : List F) (c : ℕ) (hc : 0 < c) (hc64 : c < 64)
    (henough : ¬ Short src q es) (hid : ∀ i e, IdentityAt src q es i e → e = 0) :
    multiexpInnerW F b w src q (es.map Exponent.ofField) c =
      some (.ok (∑ i ∈ Finset.range (queried q es).length, (queried q es).getD i 0 • src.bases.getD (src.pos + i) 0)) := by
  rw [multiexpInnerW_eq F b w src q _ c hc64, C24_window w src q es c hc hc64 henough hid]

/-- C84: a window of 64 bits or more is too wide: computing the number of buckets ends a debug build with a panic. -/
theorem C84_window_limit (c : ℕ) (hc : 64 ≤ c) : bucketsW .debug c = none := by
  unfold bucketsW
  rw [((C84_words .debug 64 1 c).2.2.2.2.2.2.2 hc).1]
  rfl

/-- C84: so does the closure for any such window once it has an exponent to look at, and the whole multiexponentiation with it. -/
theorem C84_window_panics (w : Worker) (src : BaseSource G) (pairs : List (ChunkedExponent × Bool)) (exps : List Exponent) (c chunk : ℕ)
    (hc : 64 ≤ c) (hpairs : pairs ≠ []) (hexps : exps ≠ []) :
    (windowTaskW .debug src pairs c chunk).run = none ∧ multiexpInnerW F .debug w src .full exps c = none := by
  have hrun : ∀ (pairs : List (ChunkedExponent × Bool)) (chunk : ℕ), pairs ≠ [] → (windowTaskW .debug src pairs c chunk).run = none := by
    intro pairs chunk h
    obtain ⟨ed, rest, rfl⟩ := List.exists_cons_of_ne_nil h
    unfold windowTaskW Task.guarded Task.run
    rw [C84_window_limit c hc]
    rfl
  refine ⟨hrun pairs chunk hpairs, ?_⟩
  unfold multiexpInnerW
  rcases h : exps.mapM fun e => e.chunksW .debug c with _ | l
  · rw [h]
    rfl
  have hl : l ≠ [] := by
    rintro rfl
    obtain ⟨e, rest, rfl⟩ := List.exists_cons_of_ne_nil hexps
    simp [List.mapM_cons, Option.bind_eq_some_iff] at h
  obtain ⟨k, hk⟩ : ∃ k, (NUM_BITS F + (c - 1)) / c = k + 1 := by
    have h1 : 0 < NUM_BITS F := by have := capacity_lt (F := F); omega
    exact Nat.exists_eq_add_of_le' ((Nat.one_le_div_iff (by omega)).2 (by omega))
  have hz : QueryDensity.full.zip l ≠ [] := by
    show l.map _ ≠ []
    simpa using hl
  rw [h]
  simp only [Option.bind_eq_bind, Option.bind_some, Worker.runTasks_eq, hk, List.range_succ_eq_map, List.map_cons, List.mapM_cons]
  rw [hrun _ 0 hz]
  simp

/-- Non-vacuity: one exponent and windows of 64 bits. -/
example (w : Worker) :
    (windowTaskW .debug ⟨([9, 7] : List DummyFr), 0⟩ [(.zero, true)] 64 0).run = none ∧
    multiexpInnerW DummyFr .debug w ⟨([9, 7] : List DummyFr), 0⟩ .full (([3, 11] : List DummyFr).map Exponent.ofField) 64 = none :=
  C84_window_panics w _ _ _ 64 0 le_rfl (by simp) (by simp)

/-- Non-vacuity: two bases and two exponents, with windows of 63 bits and with those the code chooses. -/
example (b : Build) (w : Worker) :
    multiexpW DummyFr b w ⟨([9, 7] : List DummyFr), 0⟩ .full (([3, 11] : List DummyFr).map Exponent.ofField) = some (.ok (3 * 9 + 11 * 7)) ∧
    multiexpInnerW DummyFr b w ⟨([9, 7] : List DummyFr), 0⟩ .full (([3, 11] : List DummyFr).map Exponent.ofField) 63 =
      some (.ok (3 * 9 + 11 * 7)) := by
  have hid : ∀ i e, IdentityAt ⟨([9, 7] : List DummyFr), 0⟩ .full ([3, 11] : List DummyFr) i e → e = 0 := by
    rintro i e ⟨h1, h2⟩
    rcases i with _ | _ | i
    · simp at h2; exact absurd h2 (by decide +kernel)
    · simp at h2; exact absurd h2 (by decide +kernel)
    · simp [queried] at h1
  have hs : ¬ Short ⟨([9, 7] : List DummyFr), 0⟩ .full ([3, 11] : List DummyFr) := by simp [Short, queried]
  constructor
  · rw [C84_multiexp, C24_multiexp w _ .full ([3, 11] : List DummyFr) (by norm_num) trivial hs hid]
    simp [queried, Finset.sum_range_succ]
  · rw [C84_window b w _ .full ([3, 11] : List DummyFr) 63 (by norm_num) (by norm_num) hs hid]
    simp [queried, Finset.sum_range_succ]

/-! ### src/gadgets/uint32.rs -/

/-- C84: `addmany` sums up to ten words in a `u64` and counts the bits in a `usize`: on every list of operands the machine runs the same
program as the unbounded model. -/
theorem C84_addmany (b : Build) (operands : List UInt32) : (UInt32.addmanyW b operands : MSynth F UInt32) = UInt32.addmany operands :=
  UInt32.addmanyW_eq b operands

/-- The sum of ten words is the largest: one more bit is needed than three carries give. -/
example : 2 ^ 35 ≤ 10 * (2 ^ 32 - 1) ∧ Build.debug.mul 64 10 (2 ^ 32 - 1) = some (10 * (2 ^ 32 - 1)) ∧
    Build.debug.mul 32 10 (2 ^ 32 - 1) = none :=
  ⟨by norm_num, (C84_words .debug 64 10 _).2.1 (by norm_num), ((C84_words .debug 32 10 _).2.2.2.2.2.1 (by norm_num)).1⟩

end Bellman

import Verif.Proofs.Fft
import Mathlib.Algebra.Ring.GeomSum
import Mathlib.Algebra.Polynomial.Roots
import Mathlib.LinearAlgebra.Lagrange
import Mathlib.RingTheory.RootsOfUnity.PrimitiveRoots

/-!
# Evaluation domains: construction, transforms, pointwise operations
-/

namespace Bellman

set_option linter.unusedSectionVars false

open PrimeField Finset

variable {F T : Type} [PrimeField F] [AddCommGroup T] [Module F T]

namespace EvaluationDomain

/-! ## Construction -/

theorem omegaLoop_eq (x : F) (n : ℕ) : omegaLoop x n = x ^ (2 ^ n) := by
  induction n generalizing x with
  | zero => simp [omegaLoop]
  | succ n ih => rw [omegaLoop, ih, ← pow_two, ← pow_mul, ← pow_succ']

theorem S_pos : 0 < S F := by
  by_contra h
  have h0 : S F = 0 := by omega
  have := S_max (F := F)
  rw [h0] at this
  apply this
  have h2 := prime (F := F)
  have h3 := p_ne_two (F := F)
  have := h2.eq_two_or_odd'
  rcases this with h | h
  · exact absurd h h3
  · obtain ⟨k, hk⟩ := h
    rw [hk]; simp

theorem two_pow_S_lt : 2 ^ S F < p F := by
  have h1 := Nat.le_of_dvd (by have := two_lt_p (F := F); omega) (S_dvd (F := F))
  have := two_lt_p (F := F)
  omega

/-- The sizing loop from an intermediate state. -/
theorem sizeLoop_spec (len : ℕ) : ∀ (r exp : ℕ), exp + r = S F → (exp = 0 ∨ 2 ^ (exp - 1) < len ∧ exp < S F) →
    (∃ e, sizeLoop F len (2 ^ exp) exp = .ok (2 ^ e, e) ∧ len ≤ 2 ^ e ∧ (e = 0 ∨ 2 ^ (e - 1) < len ∧ e < S F)) ∨
    (sizeLoop F len (2 ^ exp) exp = .error .polynomialDegreeTooLarge ∧ 2 ^ (S F - 1) < len) := by
  intro r
  induction r with
  | zero =>
    intro exp he h
    have : 0 < S F := S_pos
    exfalso
    rcases h with h | h <;> omega
  | succ r ih =>
    intro exp he h
    rw [sizeLoop.eq_1]
    split
    · rename_i hlt
      split
      · rename_i hS
        right
        refine ⟨rfl, ?_⟩
        have : S F - 1 = exp := by omega
        rw [this]; exact hlt
      · rename_i hS
        have := ih (exp + 1) (by omega) (Or.inr ⟨by simpa using hlt, by omega⟩)
        rw [pow_succ] at this
        exact this
    · left
      exact ⟨exp, rfl, by omega, h⟩

theorem sizeLoop_cases (len : ℕ) :
    (∃ e, sizeLoop F len 1 0 = .ok (2 ^ e, e) ∧ len ≤ 2 ^ e ∧ (e = 0 ∨ 2 ^ (e - 1) < len ∧ e < S F)) ∨
    (sizeLoop F len 1 0 = .error .polynomialDegreeTooLarge ∧ 2 ^ (S F - 1) < len) := by
  have := sizeLoop_spec (F := F) len (S F) 0 (by omega) (Or.inl rfl)
  simpa using this

/-- What every domain satisfies: the fields are private and every operation preserves it. -/
structure WF (d : EvaluationDomain F T) : Prop where
  len : d.coeffs.length = 2 ^ d.exp
  exp_lt : d.exp < S F
  prim : IsPrimitiveRoot d.omega (2 ^ d.exp)
  omegainv : d.omegainv * d.omega = 1
  geninv : d.geninv * MULTIPLICATIVE_GENERATOR = 1
  minv : d.minv * (2 ^ d.exp : F) = 1

theorem gen_ne_zero : (MULTIPLICATIVE_GENERATOR : F) ≠ 0 := by
  intro h
  have h1 := gen_order (F := F)
  rw [h, orderOf_zero] at h1
  have := two_lt_p (F := F)
  omega

theorem two_pow_ne_zero (e : ℕ) : (2 : F) ^ e ≠ 0 := pow_ne_zero _ two_ne_zero'

theorem fromCoeffs_cases (l : List T) :
    (∃ d : EvaluationDomain F T, fromCoeffs l = some (.ok d) ∧ d.WF ∧ l.length ≤ 2 ^ d.exp ∧
      (d.exp = 0 ∨ 2 ^ (d.exp - 1) < l.length) ∧ d.coeffs = l ++ List.replicate (2 ^ d.exp - l.length) 0 ∧
      d.omega = ROOT_OF_UNITY ^ (2 ^ (S F - d.exp))) ∨
    (fromCoeffs (F := F) l = some (.error .polynomialDegreeTooLarge) ∧ 2 ^ (S F - 1) < l.length) := by
  rcases sizeLoop_cases (F := F) l.length with ⟨e, he, hle, hmin⟩ | ⟨he, hgt⟩
  · left
    have heS : e < S F := by
      rcases hmin with h | h
      · rw [h]; exact S_pos
      · exact h.2
    have hprim : IsPrimitiveRoot ((ROOT_OF_UNITY : F) ^ (2 ^ (S F - e))) (2 ^ e) := by
      refine IsPrimitiveRoot.pow (n := 2 ^ S F) (by positivity) root_primitive ?_
      rw [← pow_add]; congr 1; omega
    have hw0 : (ROOT_OF_UNITY : F) ^ (2 ^ (S F - e)) ≠ 0 := hprim.ne_zero (by positivity)
    have hm0 : ((2 ^ e : ℕ) : F) ≠ 0 := by push_cast; exact two_pow_ne_zero e
    refine ⟨⟨l ++ List.replicate (2 ^ e - l.length) 0, e, (ROOT_OF_UNITY : F) ^ (2 ^ (S F - e)),
      ((ROOT_OF_UNITY : F) ^ (2 ^ (S F - e)))⁻¹, (MULTIPLICATIVE_GENERATOR : F)⁻¹, ((2 ^ e : ℕ) : F)⁻¹⟩, ?_, ?_, hle,
      hmin.imp id And.left, rfl, rfl⟩
    · unfold fromCoeffs
      rw [he]
      simp only [omegaLoop_eq, invertUnwrap, if_neg hw0, if_neg gen_ne_zero, if_neg hm0, Option.bind_eq_bind,
        Option.bind_some, Option.pure_def]
    · refine ⟨?_, heS, hprim, inv_mul_cancel₀ hw0, inv_mul_cancel₀ gen_ne_zero, ?_⟩
      · simp only [List.length_append, List.length_replicate]; omega
      · simp only
        push_cast
        exact inv_mul_cancel₀ (two_pow_ne_zero e)
  · right
    refine ⟨?_, hgt⟩
    unfold fromCoeffs
    rw [he]

/-! ## The transforms on well-formed domains -/

theorem prim_half {omega : F} {e : ℕ} (h : IsPrimitiveRoot omega (2 ^ e)) (he : 0 < e) : omega ^ (2 ^ (e - 1)) = -1 := by
  have h1 : (omega ^ (2 ^ (e - 1))) ^ 2 = 1 := by
    rw [← pow_mul, ← pow_succ, show e - 1 + 1 = e by omega, h.pow_eq_one]
  have h2 : omega ^ (2 ^ (e - 1)) ≠ 1 :=
    h.pow_ne_one_of_pos_of_lt (by positivity) (Nat.pow_lt_pow_right (by norm_num) (by omega))
  exact (sq_eq_one_iff.1 h1).resolve_left h2

/-- The values of a coefficient list at the powers of `x`. -/
def dftList (x : F) (l : List T) : List T := (List.range l.length).map fun i => valAt l.length (fun t => l.getD t 0) (x ^ i)

theorem dftList_length (x : F) (l : List T) : (dftList x l).length = l.length := by simp [dftList]

theorem dftList_getD (x : F) (l : List T) (i : ℕ) (hi : i < l.length) :
    (dftList x l).getD i 0 = valAt l.length (fun t => l.getD t 0) (x ^ i) := by
  simp [dftList, hi]

theorem bestFft_eq (wk : Worker) (omega : F) (e : ℕ) (l : List T) (he : wk.FftFits e) (hl : l.length = 2 ^ e)
    (hp : IsPrimitiveRoot omega (2 ^ e)) : bestFft wk l omega e = some (dftList omega l) := by
  have hr := Rep.getD l (0 : T)
  rw [hl] at hr
  obtain ⟨a', h1, h2⟩ := bestFft_spec wk omega _ e l he hr fun h => prim_half hp h
  rw [h1, h2.eq_map]
  unfold dftList
  rw [hl]

theorem mapIdx_eq_map {α β : Type} (f : α → β) (l : List α) : (l.mapIdx fun _ x => f x) = l.map f := by
  apply List.ext_getElem?
  intro i
  simp [List.getElem?_mapIdx]

theorem scale_eq (wk : Worker) (c : F) (l : List T) (h : 0 < l.length) :
    wk.forChunks l.length (scaleTask c) Prod.fst l = some (l.map fun x => c • x) := by
  have hpos : 0 < wk.chunkSize l.length := (wk.chunkSize_pos_iff _).2 (Or.inr h)
  rw [wk.forChunks_eq l.length (scaleTask c) Prod.fst l (fun _ x => c • x) hpos, mapIdx_eq_map]
  intro i v _ _
  refine ⟨_, loopTask_run () (fun _ x => (c • x, ())) (fun _ => ()) rfl (fun _ _ => rfl) v, rfl⟩

theorem distribute_eq (wk : Worker) (d : EvaluationDomain F T) (g : F) (h : 0 < d.coeffs.length) :
    d.distributePowers wk g = some { d with coeffs := d.coeffs.mapIdx fun i x => g ^ i • x } := by
  have hpos : 0 < wk.chunkSize d.coeffs.length := (wk.chunkSize_pos_iff _).2 (Or.inr h)
  unfold distributePowers
  rw [wk.forChunks_eq d.coeffs.length _ Prod.fst d.coeffs (fun i x => g ^ i • x) hpos]
  · rfl
  · intro i v _ _
    exact ⟨_, loopTask_run (g ^ (i * wk.chunkSize d.coeffs.length)) (fun u (x : T) => (u • x, u * g))
      (fun j => g ^ (i * wk.chunkSize d.coeffs.length + j)) rfl (fun j _ => (pow_succ g _).symm) v, rfl⟩

theorem fft_eq (wk : Worker) (d : EvaluationDomain F T) (hd : d.WF) (h32 : wk.FftFits d.exp) :
    d.fft wk = some { d with coeffs := dftList d.omega d.coeffs } := by
  unfold fft
  rw [bestFft_eq wk d.omega d.exp d.coeffs h32 hd.len hd.prim]
  rfl

theorem ifft_none (wk : Worker) (d : EvaluationDomain F T) (h : ¬ wk.FftFits d.exp) : d.ifft wk = none := by
  unfold ifft
  rw [bestFft_none (wk.site 0) _ _ _ h]
  rfl

theorem WF.omegainv_eq {d : EvaluationDomain F T} (hd : d.WF) : d.omegainv = d.omega⁻¹ :=
  eq_inv_of_mul_eq_one_left hd.omegainv

theorem WF.prim_inv {d : EvaluationDomain F T} (hd : d.WF) : IsPrimitiveRoot d.omegainv (2 ^ d.exp) := by
  rw [hd.omegainv_eq]; exact hd.prim.inv

theorem WF.pos {d : EvaluationDomain F T} (hd : d.WF) : 0 < d.coeffs.length := by rw [hd.len]; positivity

theorem WF.with_coeffs {d : EvaluationDomain F T} (hd : d.WF) (l : List T) (hl : l.length = d.coeffs.length) :
    ({ d with coeffs := l } : EvaluationDomain F T).WF :=
  ⟨hl.trans hd.len, hd.exp_lt, hd.prim, hd.omegainv, hd.geninv, hd.minv⟩

theorem ifft_eq (wk : Worker) (d : EvaluationDomain F T) (hd : d.WF) (h32 : wk.FftFits d.exp) :
    d.ifft wk = some { d with coeffs := (dftList d.omegainv d.coeffs).map fun x => d.minv • x } := by
  unfold ifft
  rw [bestFft_eq (wk.site 0) d.omegainv d.exp d.coeffs h32 hd.len hd.prim_inv]
  simp only [Option.bind_eq_bind, Option.bind_some]
  rw [scale_eq _ _ _ (by rw [dftList_length]; exact hd.pos)]
  rfl

/-- Orthogonality of the powers of a primitive root. -/
theorem geom_orth {x : F} {n : ℕ} (hx : x ^ n = 1) (h1 : x ≠ 1) : ∑ i ∈ range n, x ^ i = 0 := by
  have h := mul_geom_sum x n
  rw [hx, sub_self] at h
  exact (mul_eq_zero.1 h).resolve_left (sub_ne_zero.2 h1)

/-- Two transforms with inverse roots multiply by the size. -/
theorem dft_dft (omega : F) (e : ℕ) (hp : IsPrimitiveRoot omega (2 ^ e)) (A : ℕ → T) (k : ℕ) (hk : k < 2 ^ e) :
    valAt (2 ^ e) (fun i => valAt (2 ^ e) A (omega ^ i)) (omega⁻¹ ^ k) = ((2 : F) ^ e) • A k := by
  have hw0 : omega ≠ 0 := hp.ne_zero (by positivity)
  unfold valAt
  simp only [smul_sum, smul_smul]
  rw [sum_comm]
  have hin : ∀ t ∈ range (2 ^ e), ∑ i ∈ range (2 ^ e), ((omega⁻¹ ^ k) ^ i * (omega ^ i) ^ t) • A t =
      if t = k then ((2 : F) ^ e) • A k else 0 := by
    intro t ht
    rw [← sum_smul]
    have hs : ∑ i ∈ range (2 ^ e), (omega⁻¹ ^ k) ^ i * (omega ^ i) ^ t = ∑ i ∈ range (2 ^ e), (omega⁻¹ ^ k * omega ^ t) ^ i := by
      refine sum_congr rfl fun i _ => ?_
      rw [mul_pow, ← pow_mul omega i t, ← pow_mul omega t i, Nat.mul_comm i t]
    rw [hs]
    split
    · rename_i h
      subst h
      rw [← mul_pow, inv_mul_cancel₀ hw0]
      simp
    · rename_i h
      rw [geom_orth, zero_smul]
      · rw [mul_pow, ← pow_mul, ← pow_mul, Nat.mul_comm k, Nat.mul_comm t, pow_mul, pow_mul, inv_pow, hp.pow_eq_one]
        simp
      · intro h1
        rw [inv_pow] at h1
        have h2 : omega ^ t = omega ^ k := by
          have := eq_inv_of_mul_eq_one_right h1
          rwa [inv_inv] at this
        exact h (hp.pow_inj (mem_range.1 ht) hk h2)
  rw [sum_congr rfl hin, sum_ite_eq' (range (2 ^ e)) k, if_pos (mem_range.2 hk)]

theorem valAt_congr {n : ℕ} {A B : ℕ → T} (x : F) (h : ∀ t < n, A t = B t) : valAt n A x = valAt n B x :=
  sum_congr rfl fun t ht => by rw [h t (mem_range.1 ht)]

theorem valAt_smul (n : ℕ) (A : ℕ → T) (c x : F) : valAt n (fun t => c • A t) x = c • valAt n A x := by
  unfold valAt
  rw [smul_sum]
  exact sum_congr rfl fun t _ => smul_comm _ _ _

theorem ext_getD {l l' : List T} (h : l.length = l'.length) (hg : ∀ i < l.length, l.getD i 0 = l'.getD i 0) : l = l' := by
  apply List.ext_getElem h
  intro i h1 h2
  have := hg i h1
  simpa [h1, h2] using this

theorem getD_map_smul (c : F) (l : List T) (i : ℕ) : (l.map fun x => c • x).getD i 0 = c • l.getD i 0 := by
  by_cases h : i < l.length
  · simp [h]
  · simp [h]

/-- `ifft` after `fft`. -/
theorem ifft_fft_list (omega minv : F) (e : ℕ) (hp : IsPrimitiveRoot omega (2 ^ e)) (hm : minv * 2 ^ e = 1) (l : List T)
    (hl : l.length = 2 ^ e) : (dftList omega⁻¹ (dftList omega l)).map (fun x => minv • x) = l := by
  apply ext_getD
  · simp [dftList_length]
  · intro i hi
    simp only [List.length_map, dftList_length] at hi
    rw [getD_map_smul, dftList_getD _ _ _ (by rw [dftList_length]; exact hi), dftList_length]
    rw [valAt_congr (B := fun i => valAt (2 ^ e) (fun t => l.getD t 0) (omega ^ i)) _ (fun t ht => by
      rw [dftList_getD _ _ _ ht, hl])]
    rw [hl, dft_dft omega e hp _ i (by rw [← hl]; exact hi), smul_smul, hm, one_smul]

theorem fft_ifft_list (omega minv : F) (e : ℕ) (hp : IsPrimitiveRoot omega (2 ^ e)) (hm : minv * 2 ^ e = 1) (l : List T)
    (hl : l.length = 2 ^ e) : dftList omega ((dftList omega⁻¹ l).map fun x => minv • x) = l := by
  have h := ifft_fft_list omega⁻¹ minv e hp.inv hm l hl
  rw [inv_inv] at h
  rw [← h]
  apply ext_getD
  · simp [dftList_length]
  · intro i hi
    have hi' : i < l.length := by simpa [dftList_length] using hi
    rw [h, dftList_getD _ _ _ (by simpa [dftList_length] using hi'), List.length_map, dftList_length,
      valAt_congr _ (fun t _ => getD_map_smul minv _ t), valAt_smul]
    conv_rhs => rw [← h]
    rw [getD_map_smul, dftList_getD _ _ _ (by rw [dftList_length]; exact hi'), dftList_length]

/-! ## Pointwise operations -/

theorem zipTask_run {A B : Type} (f : A → B → A) (c : List (A × B)) :
    (zipTask f (c.map Prod.fst, c.map Prod.snd)).run = some (c.map fun x => f x.1 x.2) := by
  unfold zipTask
  rw [Task.run_range]
  simp only [List.length_map, min_self]
  obtain ⟨s, e, hs⟩ := foldlM_range_inv (n := c.length)
    (f := fun (a : List A) j => (do
      let x ← a[j]?
      let y ← (c.map Prod.snd)[j]?
      pure (a.set j (f x y)) : Option (List A)))
    (fun k s => s = c.mapIdx fun j x => if j < k then f x.1 x.2 else x.1)
    (s := c.map Prod.fst) (by
      apply List.ext_getElem?
      intro i
      simp [List.getElem?_mapIdx]) (by
      rintro k hk _ rfl
      refine ⟨_, ?_, rfl⟩
      simp only [List.getElem?_mapIdx, List.getElem?_map, List.getElem?_eq_getElem hk, Option.map_some, Nat.lt_irrefl, if_false,
        Option.bind_eq_bind, Option.bind_some, Option.pure_def, Option.some.injEq]
      apply List.ext_getElem?
      intro i
      simp only [List.getElem?_set, List.length_mapIdx, List.getElem?_mapIdx]
      by_cases h : k = i
      · subst h; simp [hk]
      · simp only [h, if_false]
        cases c[i]? with
        | none => rfl
        | some x =>
          simp only [Option.map_some]
          by_cases h1 : i < k
          · simp [h1, show i < k + 1 by omega]
          · simp [h1, show ¬ i < k + 1 by omega])
  rw [e, hs]
  congr 1
  apply List.ext_getElem?
  intro i
  simp only [List.getElem?_mapIdx, List.getElem?_map]
  by_cases hi : i < c.length
  · simp [hi]
  · simp [hi]

theorem zipChunks_eq {A B : Type} (wk : Worker) (f : A → B → A) (a : List A) (b : List B) (h : a.length = b.length)
    (hpos : 0 < a.length) : zipChunks wk f a b = some (List.zipWith f a b) := by
  have hn : 0 < wk.chunkSize a.length := (wk.chunkSize_pos_iff _).2 (Or.inr hpos)
  unfold zipChunks
  simp only [guard, if_pos h, Option.bind_eq_bind, Option.pure_def, Option.bind_some]
  set n := wk.chunkSize a.length
  have c1 : chunks? n a = some (chunksAux n a.length a) := by unfold chunks?; rw [if_neg (by omega)]
  have c2 : chunks? n b = some (chunksAux n a.length b) := by unfold chunks?; rw [if_neg (by omega), h]
  rw [c1, c2]
  simp only [Option.bind_some]
  rw [Worker.runTasks_eq, chunksAux_zip n a.length a b h, List.map_map, List.mapM_map]
  rw [mapM_some (Task.run ∘ zipTask f ∘ fun c => (List.map Prod.fst c, List.map Prod.snd c))
    (fun c : List (A × B) => c.map fun x : A × B => f x.1 x.2) _ (fun c _ => zipTask_run f c)]
  simp only [Option.bind_some, Option.some.injEq]
  have hlen : (chunksAux n a.length a).length = (chunksAux n a.length (a.zip b)).length := by
    have := chunksAux_length n a.length a (a.zip b) (by simp [h])
    have := congrArg List.length this
    simpa using this
  rw [List.drop_eq_nil_of_le (by rw [List.length_map, hlen]), List.append_nil, ← List.map_flatten,
    chunksAux_flatten n hn _ _ (by simp [h])]
  rw [List.zip, List.map_zipWith]

theorem zipChunks_len {A B : Type} (wk : Worker) (f : A → B → A) (a : List A) (b : List B) (h : a.length ≠ b.length) :
    zipChunks wk f a b = none := by
  unfold zipChunks
  simp only [guard, if_neg h, Option.bind_eq_bind]
  rfl

theorem mulAssign_eq (wk : Worker) (d : EvaluationDomain F T) (o : EvaluationDomain F F)
    (h : d.coeffs.length = o.coeffs.length) (hpos : 0 < d.coeffs.length) :
    d.mulAssign wk o = some { d with coeffs := List.zipWith (fun x y => y • x) d.coeffs o.coeffs } := by
  unfold mulAssign
  rw [zipChunks_eq wk _ _ _ h hpos]
  rfl

theorem subAssign_eq (wk : Worker) (d o : EvaluationDomain F T)
    (h : d.coeffs.length = o.coeffs.length) (hpos : 0 < d.coeffs.length) :
    d.subAssign wk o = some { d with coeffs := List.zipWith (fun x y => x - y) d.coeffs o.coeffs } := by
  unfold subAssign
  rw [zipChunks_eq wk _ _ _ h hpos]
  rfl

/-! ## The coset -/

theorem z_gen_ne_zero (d : EvaluationDomain F T) (hd : d.WF) : d.z (MULTIPLICATIVE_GENERATOR : F) ≠ 0 := by
  unfold z
  rw [hd.len]
  intro h
  have h1 : (MULTIPLICATIVE_GENERATOR : F) ^ (2 ^ d.exp) = 1 := sub_eq_zero.1 h
  have h2 := orderOf_dvd_of_pow_eq_one h1
  rw [gen_order] at h2
  have h3 := Nat.le_of_dvd (by positivity) h2
  have h4 : 2 ^ d.exp < 2 ^ S F := Nat.pow_lt_pow_right (by norm_num) hd.exp_lt
  have h5 := two_pow_S_lt (F := F)
  omega

theorem divideByZ_eq (wk : Worker) (d : EvaluationDomain F T) (hd : d.WF) :
    d.divideByZOnCoset wk =
      some { d with coeffs := d.coeffs.map fun x => (d.z (MULTIPLICATIVE_GENERATOR : F))⁻¹ • x } := by
  unfold divideByZOnCoset
  simp only [invertUnwrap, if_neg (z_gen_ne_zero d hd), Option.bind_eq_bind, Option.bind_some]
  rw [scale_eq _ _ _ hd.pos]
  rfl

theorem cosetFft_eq (wk : Worker) (d : EvaluationDomain F T) (hd : d.WF) (h32 : wk.FftFits d.exp) :
    d.cosetFft wk = some { d with
      coeffs := dftList d.omega (d.coeffs.mapIdx fun i x => (MULTIPLICATIVE_GENERATOR : F) ^ i • x) } := by
  unfold cosetFft
  rw [distribute_eq _ _ _ hd.pos]
  simp only [Option.bind_eq_bind, Option.bind_some]
  exact fft_eq _ _ (hd.with_coeffs (d.coeffs.mapIdx fun i x => (MULTIPLICATIVE_GENERATOR : F) ^ i • x) (by simp)) h32

theorem icosetFft_eq (wk : Worker) (d : EvaluationDomain F T) (hd : d.WF) (h32 : wk.FftFits d.exp) :
    d.icosetFft wk = some { d with
      coeffs := ((dftList d.omegainv d.coeffs).map fun x => d.minv • x).mapIdx fun i x => d.geninv ^ i • x } := by
  unfold icosetFft
  rw [ifft_eq (wk.site 0) _ hd h32]
  simp only [Option.bind_eq_bind, Option.bind_some]
  rw [distribute_eq]
  simp only [List.length_map, dftList_length]
  exact hd.pos

theorem valAt_mul_pow (n : ℕ) (A : ℕ → T) (g x : F) : valAt n (fun t => g ^ t • A t) x = valAt n A (g * x) := by
  unfold valAt
  refine sum_congr rfl fun t _ => ?_
  rw [smul_smul, mul_pow, mul_comm]

theorem getD_mapIdx_smul (g : F) (l : List T) (i : ℕ) : (l.mapIdx fun i x => g ^ i • x).getD i 0 = g ^ i • l.getD i 0 := by
  by_cases h : i < l.length
  · simp [h]
  · simp [h]

/-- Entry `i` after `coset_fft` is the value at `g·ω^i`. -/
theorem coset_getD (omega g : F) (l : List T) (i : ℕ) (hi : i < l.length) :
    (dftList omega (l.mapIdx fun i x => g ^ i • x)).getD i 0 = valAt l.length (fun t => l.getD t 0) (g * omega ^ i) := by
  rw [dftList_getD _ _ _ (by simpa using hi), List.length_mapIdx, valAt_congr _ (fun t _ => getD_mapIdx_smul g l t),
    valAt_mul_pow]

theorem mapIdx_pow_cancel (g ginv : F) (h : ginv * g = 1) (l : List T) :
    (l.mapIdx fun i x => g ^ i • x).mapIdx (fun i x => ginv ^ i • x) = l := by
  apply List.ext_getElem?
  intro i
  simp only [List.getElem?_mapIdx]
  cases l[i]? with
  | none => rfl
  | some x => simp only [Option.map_some]; rw [smul_smul, ← mul_pow, h, one_pow, one_smul]

end EvaluationDomain

end Bellman

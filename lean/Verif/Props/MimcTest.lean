import Verif.Examples.MimcTest
import Verif.Props.Mimc
import Verif.Props.Batch

/-!
# C46 and C48: proofs that cannot be read back, and the integration tests with write, read and batch
-/

set_option linter.unusedSectionVars false

namespace Bellman

open PrimeField Mimc

variable {F : Type} [PrimeField F] {G1 G2 GT : Type} [AddCommGroup G1] [AddCommGroup G2] [AddCommGroup GT] [Module F G1] [Module F G2]
  [Module F GT] [DecidableEq G1] [DecidableEq G2] [DecidableEq GT]

/-- Three graphs of functions have together at most `3 |F|` points. -/
theorem three_graphs (f g h : F → F) :
    ({x : F × F | x.1 = f x.2} ∪ ({x : F × F | x.2 = g x.1} ∪ {x : F × F | x.2 = h x.1}) : Set _).ncard ≤ 3 * p F := by
  have := PrimeField.finite (F := F)
  have h1 : ∀ f : F → F, ({x : F × F | x.2 = f x.1} : Set _).ncard ≤ p F := by
    intro f
    rw [← PrimeField.card_eq (F := F), ← Set.ncard_univ]
    exact Set.ncard_le_ncard_of_injOn (fun x : F × F => x.1) (fun _ _ => trivial)
        (fun x hx y hy e => Prod.ext e (by rw [show x.2 = f x.1 from hx, show y.2 = f y.1 from hy]; exact congrArg f e)) (Set.toFinite _)
  have h2 : ({x : F × F | x.1 = f x.2} : Set _).ncard ≤ p F := by
    rw [← PrimeField.card_eq (F := F), ← Set.ncard_univ]
    exact Set.ncard_le_ncard_of_injOn (fun x : F × F => x.2) (fun _ _ => trivial)
        (fun x hx y hy e => Prod.ext (by rw [show x.1 = f x.2 from hx, show y.1 = f y.2 from hy]; exact congrArg f e) e) (Set.toFinite _)
  have h3 := Set.ncard_union_le {x : F × F | x.1 = f x.2} ({x : F × F | x.2 = g x.1} ∪ {x : F × F | x.2 = h x.1})
  have h4 := Set.ncard_union_le {x : F × F | x.2 = g x.1} {x : F × F | x.2 = h x.1}
  have h5 := h1 g
  have h6 := h1 h
  omega

/-- C46: `Proof::read` refuses a proof with an identity element (C38).  An honest proof contains one for at most `3 |F|` of the `|F|^2`
pairs of blinding factors. -/
theorem C46_proof_storable {R : Unit → Unit → Prop} {kc pc : Synth F Unit} (h : SShape R kc pc) (w w' : Worker) (g1 : G1) (g2 : G2)
    (α β γ δ τ : F) (params : Parameters G1 G2) (hk : generateParameters w kc g1 g2 α β γ δ τ = Res.ok params) :
    ({x : F × F | ∃ pf, createProof w' pc params x.1 x.2 = Res.ok pf ∧ (pf.a = 0 ∨ pf.b = 0 ∨ pf.c = 0)} : Set _).ncard ≤ 3 * p F := by
  classical
  have := PrimeField.finite (F := F)
  by_cases hok : ∃ r s pf, createProof w' pc params r s = Res.ok pf
  swap
  · refine le_trans (le_of_eq ?_) (Nat.zero_le _)
    rw [Set.ncard_eq_zero (Set.toFinite _), Set.eq_empty_iff_forall_notMem]
    rintro x ⟨pf, hp, -⟩
    exact hok ⟨_, _, _, hp⟩
  obtain ⟨r0, s0, pf0, hp0⟩ := hok
  obtain ⟨t0, t, ht0, ht, -, -, -, -, hδ, hR, -, -⟩ := prove_spec h hk hp0
  obtain ⟨-, -, -, -, -, -, hval⟩ := prove_all h hk hp0 ht
  have hg1 : g1 ≠ 0 := fun h0 => hR.δ1 (by rw [h0, smul_zero])
  have hg2 : g2 ≠ 0 := fun h0 => hR.δ2 (by rw [h0, smul_zero])
  generalize hA : α + ((Qap.ofTrace t).A (witness t)).eval τ = A at *
  generalize hB : β + ((Qap.ofTrace t).B (witness t)).eval τ = B at *
  generalize hC : ((Qap.ofTrace t).priv α β τ (witness t) + ((Qap.ofTrace t).proverH (witness t)).eval τ * (Qap.ofTrace t).Z.eval τ) / δ = C at *
  refine (Set.ncard_le_ncard ?_ (Set.toFinite _)).trans (three_graphs (fun _ => -A / δ) (fun _ => -B / δ) fun r => -(C + r * B) / (A + r * δ))
  rintro ⟨r, s⟩ ⟨pf, hp, hz⟩
  rw [hval, Res.ok_inj] at hp
  subst hp
  simp only [Qap.proof, hA, hB, hC] at hz
  simp only [Set.mem_union, Set.mem_ofPred_eq]
  by_cases ha : A + r * δ = 0
  · left; field_simp; linear_combination ha
  right
  rcases hz with h0 | h0 | h0
  · exact absurd ((smul_eq_zero.1 h0).resolve_right hg1) ha
  · left
    have := (smul_eq_zero.1 h0).resolve_right hg2
    field_simp; linear_combination this
  · right
    have := (smul_eq_zero.1 h0).resolve_right hg1
    rw [eq_div_iff ha]
    linear_combination this

/-- One turn of the loop of the tests, for a proof without identity elements. -/
theorem oneSample_ok (E : Engine F G1 G2 GT) (c1 : PointCodec G1) (c2 : PointCodec G2) {w' : Worker} {cs : List F} {params : Parameters G1 G2}
    {x : Sample F} {pf : Proof G1 G2} {image : F} (hp : createProof w' (Demo.mk (some x.xl) (some x.xr) cs).synthesize params x.r x.s = Res.ok pf)
    (hi : Mimc.mimc x.xl x.xr cs = some image) (hv : verifyProof E (prepareVerifyingKey E params.vk) pf [image] = some (.ok ()))
    (hvalid : pf.Valid c1 c2) (ha : pf.a ≠ 0) (hb : pf.b ≠ 0) (hc : pf.c ≠ 0) :
    oneSample E c1 c2 w' cs params x = some (pf, [image]) := by
  obtain ⟨bytes, e1, e2⟩ := C37_proof c1 c2 pf hvalid ha hb hc
  have e2 : Proof.read c1 c2 bytes = some (.ok (pf, [])) := by simpa using e2 []
  unfold oneSample
  rw [hi, hp]
  simp only [Option.bind_some, Res.ok]
  rw [e1 []]
  simp only [List.nil_append, e2]
  rw [if_pos hv]

/-- C48, the integration tests `test_mimc` and `batch_verify`: except for a fraction `1985269 / |F|` of the trapdoors, setup succeeds, and
then for any number `n` of samples, whatever the preimages, the tests pass with all but at most `3 n |F|^(2n-1)` of the `|F|^(2n)` choices of
blinding factors; `batch_verify` whatever the weights, if there are enough of them. -/
theorem C48_tests (E : Engine F G1 G2 GT) (c1 : PointCodec G1) (c2 : PointCodec G2) (cs : List F) (h : cs.length = 322) (hS : 11 ≤ S F)
    (w : Worker) (g1 : G1) (g2 : G2) (hg1 : g1 ≠ 0) (hg2 : g2 ≠ 0) (hv1 : ∀ a : F, c1.Valid (a • g1)) (hv2 : ∀ a : F, c2.Valid (a • g2)) :
    ({x : F × F × F × F × F | ¬ ∃ params, generateParameters w (Demo.mk none none cs).synthesize g1 g2 x.1 x.2.1 x.2.2.1 x.2.2.2.1 x.2.2.2.2 =
        Res.ok params ∧ ∀ (w' : Worker) (n : ℕ) (pre : Fin n → F × F),
          Nat.card {rs : Fin n → F × F // ¬ (
            let samples := List.ofFn fun i => (⟨(pre i).1, (pre i).2, (rs i).1, (rs i).2⟩ : Sample F)
            testMimc E c1 c2 w' cs params samples = some () ∧
            ∀ tape : List F, n ≤ (tape.filter (· ≠ 0)).length → batchVerify E c1 c2 w' cs params samples tape = some ())} ≤
          n * (3 * p F * (p F ^ 2) ^ (n - 1))} : Set _).ncard ≤ 1985269 * p F ^ 4 := by
  classical
  have := PrimeField.finite (F := F)
  refine (Set.ncard_le_ncard ?_ (Set.toFinite _)).trans (C48_pipeline E cs h hS w g1 g2 hg1 hg2)
  rintro x hx
  refine fun hx' => hx ?_
  obtain ⟨params, hk, hall⟩ := hx'
  refine ⟨params, hk, fun w' n pre => ?_⟩
  have hcount : ∀ i : Fin n, ({a : F × F | ∃ pf, createProof w' (Demo.mk (some (pre i).1) (some (pre i).2) cs).synthesize params a.1 a.2 = Res.ok pf ∧
      (pf.a = 0 ∨ pf.b = 0 ∨ pf.c = 0)} : Set _).ncard ≤ 3 * p F := fun i =>
    C46_proof_storable (shape_key cs (pre i).1 (pre i).2) w w' g1 g2 _ _ _ _ _ params hk
  have hcard : Nat.card (F × F) = p F ^ 2 := by rw [Nat.card_prod, PrimeField.card_eq]; ring
  have hone : ∀ i : Fin n, Nat.card {rs : Fin n → F × F // ∃ pf, createProof w' (Demo.mk (some (pre i).1) (some (pre i).2) cs).synthesize params
      (rs i).1 (rs i).2 = Res.ok pf ∧ (pf.a = 0 ∨ pf.b = 0 ∨ pf.c = 0)} ≤ 3 * p F * (p F ^ 2) ^ (n - 1) := by
    intro i
    rw [← hcard]
    refine count_vectors n i _ _ fun f => ?_
    simpa using hcount i
  let bad : ℕ → Set (Fin n → F × F) := fun i => {rs | ∃ hi : i < n, ∃ pf, createProof w'
    (Demo.mk (some (pre ⟨i, hi⟩).1) (some (pre ⟨i, hi⟩).2) cs).synthesize params (rs ⟨i, hi⟩).1 (rs ⟨i, hi⟩).2 = Res.ok pf ∧
      (pf.a = 0 ∨ pf.b = 0 ∨ pf.c = 0)}
  have hbad := ncard_biUnion_range n (3 * p F * (p F ^ 2) ^ (n - 1)) bad (fun i hi => by
    refine le_trans (le_of_eq ?_) (hone ⟨i, hi⟩)
    rw [← Nat.card_coe_set_eq]
    refine Nat.card_congr (Equiv.subtypeEquivRight fun rs => ⟨fun ⟨_, h⟩ => h, fun h => ⟨hi, h⟩⟩))
  refine le_trans ?_ hbad
  refine (le_of_eq (Nat.card_coe_set_eq (Set.ofPred _))).trans ?_
  refine Set.ncard_le_ncard (fun rs hrs => ?_) (Set.toFinite _)
  by_contra hgood
  refine hrs ?_
  intro samples
  have hs : ∃ xs, samples.mapM (oneSample E c1 c2 w' cs params) = some xs ∧ xs.length = n ∧
      ∀ y ∈ xs, verifyProof E (prepareVerifyingKey E params.vk) y.1 y.2 = some (.ok ()) := by
    have hex : ∀ i : Fin n, ∃ y : Proof G1 G2 × List F, oneSample E c1 c2 w' cs params ⟨(pre i).1, (pre i).2, (rs i).1, (rs i).2⟩ = some y ∧
        verifyProof E (prepareVerifyingKey E params.vk) y.1 y.2 = some (.ok ()) := by
      intro i
      obtain ⟨pf, image, hp, hi, hv⟩ := hall w' (pre i).1 (pre i).2 (rs i).1 (rs i).2
      have hn : ¬ (pf.a = 0 ∨ pf.b = 0 ∨ pf.c = 0) := fun hz => hgood ⟨i, i.2, i.2, pf, hp, hz⟩
      push Not at hn
      obtain ⟨_, _, _, _, _, _, _, _, _, _, _, hpf⟩ := prove_spec (shape_key cs (pre i).1 (pre i).2) hk hp
      exact ⟨_, oneSample_ok E c1 c2 hp hi hv (by rw [hpf]; exact ⟨hv1 _, hv2 _, hv1 _⟩) hn.1 hn.2.1 hn.2.2, hv⟩
    choose y hy1 hy2 using hex
    refine ⟨List.ofFn y, ?_, List.length_ofFn, fun z hz => ?_⟩
    · have key : ∀ l : List (Fin n), (l.map fun i => (⟨(pre i).1, (pre i).2, (rs i).1, (rs i).2⟩ : Sample F)).mapM
          (oneSample E c1 c2 w' cs params) = some (l.map y) := by
        intro l
        induction l with
        | nil => rfl
        | cons i l ih => rw [List.map_cons, List.mapM_cons, hy1, ih]; rfl
      have := key (List.finRange n)
      rwa [← List.ofFn_eq_map, ← List.ofFn_eq_map] at this
    · obtain ⟨i, rfl⟩ := (List.mem_ofFn' _ _).1 hz
      exact hy2 i
  obtain ⟨xs, hm, hlen, hver⟩ := hs
  refine ⟨by unfold testMimc; rw [hm]; rfl, fun tape ht => ?_⟩
  unfold batchVerify
  rw [hm, Option.bind_some]
  exact if_pos (C35_queued E params.vk xs tape hver (by rw [hlen]; exact ht))

/-! ## The hypotheses can be met -/

theorem digits_inj (n : ℕ) : ∀ a b : ℕ, a < 256 ^ n → b < 256 ^ n → (∀ i < n, a / 256 ^ i % 256 = b / 256 ^ i % 256) → a = b := by
  induction n with
  | zero => intro a b ha hb _; omega
  | succ n ih =>
    intro a b ha hb h
    have h0 := h 0 (by omega)
    have h1 := ih (a / 256) (b / 256) (by rw [pow_succ] at ha; omega) (by rw [pow_succ] at hb; omega) fun i hi => by
      have := h (i + 1) (by omega)
      rwa [pow_succ', ← Nat.div_div_eq_div_mul, ← Nat.div_div_eq_div_mul] at this
    rw [pow_zero, Nat.div_one, Nat.div_one] at h0
    omega

/-- The 32 bytes of a scalar. -/
def scalarBytes (g : BlsScalar) : List UInt8 := List.ofFn fun i : Fin 32 => UInt8.ofNat (val g / 256 ^ (i : ℕ) % 256)

theorem scalarBytes_inj {a b : BlsScalar} (h : scalarBytes a = scalarBytes b) : a = b := by
  have hlt : ∀ g : BlsScalar, val g < 256 ^ 32 := fun g => (val_lt g).trans (by decide +kernel)
  have hv : val a = val b := digits_inj 32 _ _ (hlt a) (hlt b) fun i hi => by
    have := congrArg UInt8.toNat (congrFun (List.ofFn_injective h) ⟨i, hi⟩)
    rwa [UInt8.toNat_ofNat', UInt8.toNat_ofNat', Nat.mod_mod_of_dvd _ (by decide), Nat.mod_mod_of_dvd _ (by decide)] at this
  rw [← cast_val a, ← cast_val b, hv]

open Classical in
/-- The scalars as a group whose elements are written as 32 bytes. -/
noncomputable def scalarCodec : PointCodec BlsScalar :=
  let dec : List UInt8 → Option BlsScalar := fun bs => if h : ∃ g, scalarBytes g = bs then some h.choose else none
  have hed : ∀ g, dec (scalarBytes g) = some g := fun g => by
    have h : ∃ g', scalarBytes g' = scalarBytes g := ⟨g, rfl⟩
    show (if h : _ then _ else _) = _
    rw [dif_pos h]
    exact congrArg some (scalarBytes_inj h.choose_spec)
  have hde : ∀ bs g, dec bs = some g → scalarBytes g = bs := fun bs g h => by
    have h : (if h : ∃ g, scalarBytes g = bs then some h.choose else none) = some g := h
    split at h
    · rename_i h'
      cases h
      exact h'.choose_spec
    · cases h
  { size := 32, toBytes := scalarBytes, toBytes_length := fun _ => List.length_ofFn, fromBytes := dec, Valid := fun _ => True
    fromBytes_toBytes := fun g _ => hed g
    fromBytes_valid := fun _ _ _ => trivial
    toBytes_fromBytes := fun bs g _ h => hde bs g h
    usize := 32, toUncompressed := scalarBytes, toUncompressed_length := fun _ => List.length_ofFn, fromUncompressed := dec
    fromUncompressedUnchecked := dec
    fromUncompressed_toUncompressed := fun g _ => hed g
    fromUncompressed_valid := fun _ _ _ => trivial
    unchecked_toUncompressed := hed
    toUncompressed_unchecked := fun bs g _ h => hde bs g h
    unchecked_of_checked := fun _ _ h => h }

/-- The hypotheses of `C48_tests` hold for the scalars of BLS12-381 with 322 different constants. -/
example : counting.length = 322 ∧ 11 ≤ S BlsScalar ∧ (1 : BlsScalar) ≠ 0 ∧ ∀ a : BlsScalar, scalarCodec.Valid (a • (1 : BlsScalar)) :=
  ⟨by rw [counting, List.length_map, List.length_range], by decide, one_ne_zero, fun _ => trivial⟩

/-- Fifty samples, as in the tests: they fail with probability below `2^-240` over the blinding factors. -/
example : 2 ^ 240 * (50 * (3 * p BlsScalar * (p BlsScalar ^ 2) ^ 49)) < (p BlsScalar ^ 2) ^ 50 := by
  have h : 2 ^ 240 * 150 < p BlsScalar := by decide +kernel
  have h0 : 0 < p BlsScalar := by omega
  calc 2 ^ 240 * (50 * (3 * p BlsScalar * (p BlsScalar ^ 2) ^ 49)) = (2 ^ 240 * 150) * (p BlsScalar * (p BlsScalar ^ 2) ^ 49) := by ring
    _ < p BlsScalar * (p BlsScalar * (p BlsScalar ^ 2) ^ 49) := Nat.mul_lt_mul_of_pos_right h (by positivity)
    _ = _ := by ring

/-- `C46_proof_storable` for the claim that 25 is a square. -/
example (w w' : Worker) : ∃ params, generateParameters w (squareCircuit none) (1 : DummyFr) (1 : DummyFr) 2 5 7 11 3 = Res.ok params ∧
    ({x : DummyFr × DummyFr | ∃ pf, createProof w' (squareCircuit (some 5)) params x.1 x.2 = Res.ok pf ∧ (pf.a = 0 ∨ pf.b = 0 ∨ pf.c = 0)} :
      Set _).ncard ≤ 3 * p DummyFr := by
  obtain ⟨params, hk, -⟩ := square_generate w
  exact ⟨params, hk, C46_proof_storable (squareCircuit_shape none (some 5)) w w' 1 1 2 5 7 11 3 params hk⟩

end Bellman

import Verif.Proofs.ConHash
import Verif.Proofs.ConPreimage
import Verif.Props.Keygen
import Verif.Props.Preimage

/-!
# C51: gadgets constrain every variable they allocate, and how large they are

`Accounted n k N A m`: every successful execution of `m` constrains every auxiliary variable it allocates, and no execution makes
more than `N` constraints or allocates more than `A` auxiliary variables.  As in C43, nothing is assumed about witness values, and
`0 < n` says that the constant one has been allocated.
-/

namespace Bellman

open PrimeField

set_option linter.unusedSectionVars false

variable {F : Type} [PrimeField F] {n k : ℕ}

/-- C51 for the gadgets that create bits. -/
theorem C51_alloc {K : Type} [PrimeField K] (hn : 0 < n) (v : Option Bool) (w : Option (BitVec 64)) (u : Option (BitVec 32)) (x : Option K)
    (c : AllocatedBit) :
    Accounted n k 1 1 (AllocatedBit.alloc v : Synth F _) ∧ Accounted n k 1 1 (AllocatedBit.allocConditionally v c : Synth F _) ∧
    Accounted n k 64 64 (u64IntoBooleanVecLe w : Synth F _) ∧ Accounted n k 32 32 (UInt32.alloc u : Synth F _) ∧
    Accounted n k (NUM_BITS K) (NUM_BITS K) (fieldIntoAllocatedBitsLe x : Synth F _) ∧
    Accounted n k (NUM_BITS K) (NUM_BITS K) (fieldIntoBooleanVecLe x : Synth F _) :=
  ⟨(AllocatedBit.scon_alloc v).accounted, (AllocatedBit.scon_allocConditionally v c).accounted,
    (scon_u64IntoBooleanVecLe hn w).accounted, (UInt32.scon_alloc hn u).accounted, (scon_fieldIntoAllocatedBitsLe hn x).accounted,
    (scon_fieldIntoBooleanVecLe hn x).accounted⟩

/-- C51 for the gadgets on `AllocatedBit`. -/
theorem C51_bits {a b : AllocatedBit} (ha : Known n k a) (hb : Known n k b) :
    Accounted n k 1 1 (AllocatedBit.xor a b : Synth F _) ∧ Accounted n k 1 1 (AllocatedBit.and a b : Synth F _) ∧
    Accounted n k 1 1 (AllocatedBit.andNot a b : Synth F _) ∧ Accounted n k 1 1 (AllocatedBit.nor a b : Synth F _) :=
  ⟨(AllocatedBit.scon_xor ha hb).accounted, (AllocatedBit.scon_and a b).accounted, (AllocatedBit.scon_andNot a b).accounted,
    (AllocatedBit.scon_nor a b).accounted⟩

/-- C51 for the gadgets on `Boolean`. -/
theorem C51_booleans (hn : 0 < n) {a b c : Boolean} (ha : Known n k a) (hb : Known n k b) (hc : Known n k c) :
    Accounted n k 1 0 (Boolean.enforceEqual a b : Synth F _) ∧ Accounted n k 1 1 (Boolean.xor a b : Synth F _) ∧
    Accounted n k 1 1 (Boolean.and a b : Synth F _) ∧ Accounted n k 1 1 (Boolean.sha256Ch a b c : Synth F _) ∧
    Accounted n k 2 2 (Boolean.sha256Maj a b c : Synth F _) :=
  ⟨(Boolean.scon_enforceEqual a b).accounted, (Boolean.scon_xor ha hb).accounted, (Boolean.scon_and hn ha hb).accounted,
    (Boolean.scon_sha256Ch hn ha hb hc).accounted, (Boolean.scon_sha256Maj hn ha hb hc).accounted⟩

/-- C51 for the gadgets on `AllocatedNum`.  `AllocatedNum::alloc` alone is not among them, see below. -/
theorem C51_num (hn : 0 < n) {a b : AllocatedNum F} (c : Boolean) (ha : Known n k a) (hb : Known n k b) :
    Accounted n k (2 * REPR_BITS F + 1) (2 * REPR_BITS F) (AllocatedNum.toBitsLeStrict a) ∧
    Accounted n k (NUM_BITS F + 1) (NUM_BITS F) (AllocatedNum.toBitsLe a) ∧ Accounted n k 1 1 (AllocatedNum.mul a b) ∧
    Accounted n k 1 1 (AllocatedNum.square a) ∧ Accounted n k 1 1 (AllocatedNum.assertNonzero a) ∧
    Accounted n k 2 2 (AllocatedNum.conditionallyReverse a b c) ∧ Accounted n k 1 0 (AllocatedNum.inputize a) :=
  ⟨(AllocatedNum.scon_toBitsLeStrict hn a).accounted, (AllocatedNum.scon_toBitsLe hn a).accounted, (AllocatedNum.scon_mul a b).accounted,
    (AllocatedNum.scon_square a).accounted, (AllocatedNum.scon_assertNonzero a).accounted,
    (AllocatedNum.scon_conditionallyReverse ha hb c).accounted, (AllocatedNum.scon_inputize a).accounted⟩

/-- C51 for the table lookups. -/
theorem C51_lookup (hn : 0 < n) {bits : List Boolean} (hb : Known n k bits) (coords : List (F × F)) :
    Accounted n k 3 3 (lookup3xy bits coords) ∧ Accounted n k 2 2 (lookup3xyWithConditionalNegation bits coords) :=
  ⟨(scon_lookup3xy hn hb coords).accounted, (scon_lookup3xyWithConditionalNegation hn hb coords).accounted⟩

/-- C51 for the gadgets on 32-bit words.  The sum of `l` words needs `C` bits if `l (2³² - 1) < 2ᶜ`; one more constraint may be needed
to flush the batched equations. -/
theorem C51_words (hn : 0 < n) {a b c : UInt32} {ops : List UInt32} (ha : Known n k a) (hb : Known n k b) (hc : Known n k c)
    (ho : Known n k ops) (sa : a.bits.length ≤ 32) (sb : b.bits.length ≤ 32) {C : ℕ} (hC : ops.length * (2 ^ 32 - 1) < 2 ^ C) :
    Accounted n k 32 32 (UInt32.xor a b : Synth F _) ∧ Accounted n k 32 32 (UInt32.sha256Ch a b c : Synth F _) ∧
    Accounted n k 64 64 (UInt32.sha256Maj a b c : Synth F _) ∧
    Accounted n k (C + 2) C (MSynth.withMultiEq (UInt32.addmany ops) : Synth F _) :=
  ⟨(UInt32.scon_xor ha hb sb).accounted, (UInt32.scon_sha256Ch hn ha hb hc sa).accounted,
    (UInt32.scon_sha256Maj hn ha hb hc sa).accounted, (UInt32.mcon_addmany hn ho hC).withMultiEq.1.accounted⟩

/-- C51 for the hash functions: at most 27045 constraints for each block of SHA-256 and 21889 for each block of BLAKE2s. -/
theorem C51_hashes (hn : 0 < n) {input : List Boolean} (hi : Known n k input) (personalization : List (BitVec 8)) :
    Accounted n k (27045 * ((input.length + 576) / 512)) (26860 * ((input.length + 576) / 512)) (Sha256.sha256 input : Synth F _) ∧
    Accounted n k 27045 26860 (Sha256.sha256BlockNoPadding input : Synth F _) ∧
    Accounted n k (21889 * max 1 ((input.length + 511) / 512)) (21568 * max 1 ((input.length + 511) / 512))
      (Blake2s.blake2s input personalization : Synth F _) :=
  ⟨(Sha256.scon_sha256 hn hi).accounted, (Sha256.scon_sha256BlockNoPadding hn hi).accounted,
    (Blake2s.scon_blake2s hn personalization hi).accounted⟩

/-- C51: `pack_into_inputs` makes one constraint for every `CAPACITY` bits and allocates no auxiliary variable. -/
theorem C51_pack (bits : List Boolean) :
    Accounted n k ((bits.length + CAPACITY F - 1) / CAPACITY F) 0 (packIntoInputs bits : Synth F _) :=
  (scon_packIntoInputs bits).accounted

/-- C51 composes. -/
theorem C51_seq {α β : Type} [Handle α] {N N' A A' : ℕ} {m : Synth F α} {g : α → Synth F β} (h : Accounted n k N A m)
    (hc : Closed n k m) (hg : ∀ k' a, k ≤ k' → Known n k' a → Accounted n k' N' A' (g a)) :
    Accounted n k (N + N') (A + A') (m >>= g) :=
  ((SCon.of_accounted h).bindClosed hc (Q := fun _ => True) (fun _ _ _ _ => trivial) fun k' a hk ha _ =>
    SCon.of_accounted (hg k' a hk ha)).accounted

variable {G1 G2 GT : Type} [AddCommGroup G1] [AddCommGroup G2] [AddCommGroup GT] [Module F G1] [Module F G2]
  [Module F GT] [DecidableEq G1] [DecidableEq G2] [DecidableEq GT]

/-- C51: a circuit made of such gadgets, with at most `N` constraints and inputs together and at most `A` auxiliary variables, can be
set up: key generation fails for at most a fraction `(A 2ᴹ + 2) / |F|` of the trapdoors, where `2ᴹ` is no less than the number of
constraints and inputs together.  In particular `UnconstrainedVariable` is reported for no more trapdoors than that. -/
theorem C51_keygen (w : Worker) (kc : Synth F Unit) (g1 : G1) (g2 : G2) (hg1 : g1 ≠ 0) {N A : ℕ} (h : Accounted 1 0 N A kc)
    (t : List (Ev F)) (ht : KeyTrace kc t) {M : ℕ} (hM : N + (numIn t + 1) ≤ 2 ^ M) (hS : M < S F) (hM32 : M < 32)
    (hw : w.multicore = true ∨ 0 < numAux t) :
    ({x : F × F × F × F × F | ¬ ∃ params, generateParameters w kc g1 g2 x.1 x.2.1 x.2.2.1 x.2.2.2.1 x.2.2.2.2 = Res.ok params} :
      Set _).ncard ≤ (A * 2 ^ M + 2) * p F ^ 4 := by
  obtain ⟨hN, hA⟩ := h.2 t _ ht.exec.exec ht.numbered
  have hsz : (consOf t).length + (numIn t + 1) ≤ 2 ^ M := by omega
  have hcl : Nat.clog 2 ((consOf t).length + (numIn t + 1)) ≤ M := (Nat.clog_le_iff_le_pow (by norm_num)).2 hsz
  have hlen : (Qap.ofTrace t).rows.length = (consOf t).length + (numIn t + 1) := by simp [Qap.ofTrace, Qap.ofRows, inputRows]
  have hsm : (consOf t).length + (numIn t + 1) ≤ 2 ^ (S F - 1) := hsz.trans (Nat.pow_le_pow_right (by norm_num) (by omega))
  have hg : (Qap.ofTrace t).Good (Nat.clog 2 (Qap.ofTrace t).rows.length) := Qap.ofTrace_good t (by rw [hlen]; exact hsm)
  refine (C46_constrained (G2 := G2) w kc g1 g2 hg1 t ht (fun i hi => h.1 t () ht.exec.exec ht.numbered i (Nat.zero_le _) (by omega))
    hsm (.inl (by omega)) hw).trans (Nat.mul_le_mul_right _ (Nat.add_le_add_right (Nat.mul_le_mul hA ?_) _))
  rw [hg.m, hlen]
  exact Nat.pow_le_pow_right (by norm_num) hcl

theorem doc_numAux {t : List (Ev F)} {c : Preimage.MyCircuit} (he : Exec c.synthesize.run t (some (.ok ()))) (ht : Numbered 1 0 t) :
    640 ≤ numAux t := by
  unfold Preimage.MyCircuit.synthesize at he
  dsimp only at he
  split at he
  · rename_i hlen
    obtain ⟨t1, t2, bits, rfl, e1, -⟩ := Synth.exec_bind_inv he
    rw [numbered_append] at ht
    obtain ⟨-, h, -⟩ := Preimage.exec_allocPreimage e1 ht.1
    rw [numAux_append, h, hlen]
    omega
  · cases he

/-- C51 for the documentation example: key generation sees at most 81780 constraints and 81220 auxiliary variables, all of them
constrained, and succeeds for all but a fraction `10645667842 / |F|` of the trapdoors. -/
theorem C51_documentation (h64 : 64 ≤ NUM_BITS F) (hS : 18 ≤ S F) :
    ∃ t : List (Ev F), KeyTrace (Preimage.MyCircuit.mk none).synthesize t ∧ (consOf t).length ≤ 81780 ∧ 640 ≤ numAux t ∧
      numAux t ≤ 81220 ∧ (∀ i < numAux t, Constrained (consOf t) (.aux i)) ∧
      ∀ (w : Worker) (g1 : G1) (g2 : G2), g1 ≠ 0 →
        ({x : F × F × F × F × F | ¬ ∃ params, generateParameters w (Preimage.MyCircuit.mk none).synthesize g1 g2
          x.1 x.2.1 x.2.2.1 x.2.2.2.1 x.2.2.2.2 = Res.ok params} : Set _).ncard ≤ 10645667842 * p F ^ 4 := by
  obtain ⟨t, ht, -, hin⟩ := C44_key (F := F) h64
  have hcap : (256 + CAPACITY F - 1) / CAPACITY F ≤ 5 := by
    have h63 : 63 ≤ CAPACITY F := by have := capacity_lt (F := F); omega
    exact Nat.lt_succ_iff.1 ((Nat.div_lt_iff_lt_mul (by omega)).2 (by omega))
  have hacc := (Preimage.scon_synthesize (F := F) (Preimage.MyCircuit.mk none)).accounted
  obtain ⟨hN, hA⟩ := hacc.2 t _ ht.exec.exec ht.numbered
  have h640 := doc_numAux ht.exec.exec ht.numbered
  refine ⟨t, ht, by omega, h640, hA, fun i hi => hacc.1 t () ht.exec.exec ht.numbered i (Nat.zero_le _) (by omega), ?_⟩
  intro w g1 g2 hg1
  exact C51_keygen w _ g1 g2 hg1 hacc t ht (M := 17) (by omega) (by omega) (by norm_num) (.inr (by omega))

/-! ### The hypotheses are met, and the property can fail -/

section Examples

/-- The circuit of C43's example: two bits, their conjunction, and a hash. -/
example (v w : Option Bool) : Accounted 1 0 27048 26863 (scopeDemo (F := F) v w) :=
  C51_seq (N := 1) (A := 1) (C51_alloc (K := F) one_pos v none none none ⟨.aux 0, none⟩).1 (AllocatedBit.slocal_alloc one_pos v).closed
    fun _ a h1 ha => C51_seq (N := 1) (A := 1) (N' := 27046) (A' := 26861) (C51_alloc (K := F) one_pos w none none none ⟨.aux 0, none⟩).1
      (AllocatedBit.slocal_alloc one_pos w).closed fun _ b h2 hb => C51_seq (N := 1) (A := 1) (N' := 27045) (A' := 26860)
        (C51_bits (Known.lift ha h2) hb).2.1 (C43_bits one_pos (Known.lift ha h2) hb).2.1 fun l c h3 hc => by
          have ha := Known.lift ha (h2.trans h3)
          have hb := Known.lift hb h3
          have hi : Known 1 l [Boolean.is a, .not b, .is c, .constant true, .is a, .is a, .is b, .is c] := by
            intro x hx
            simp only [List.mem_cons, List.not_mem_nil, or_false] at hx
            rcases hx with rfl | rfl | rfl | rfl | rfl | rfl | rfl | rfl <;> first | exact ha | exact hb | exact hc | trivial
          simpa using (C51_hashes (F := F) one_pos hi []).1

/-- `AllocatedNum::alloc` alone leaves its variable unconstrained. -/
example (v : Except SynthesisError F) : ¬ Constraining n k (AllocatedNum.alloc v) := by
  intro h
  obtain ⟨r, hr, -⟩ := h [.alloc false "num" (.aux k) none] ⟨none, .aux k⟩ (.allocSkip _ (.ret _)) ⟨rfl, trivial⟩ k le_rfl (by simp [numAux])
  simp [consOf] at hr

/-- Followed by a multiplication it does too: the factors get coefficients, not only the product. -/
example (v w : Except SynthesisError F) : Accounted 1 0 1 3 (do
    let a ← Synth.inNs "a" (AllocatedNum.alloc v)
    let b ← Synth.inNs "b" (AllocatedNum.alloc w)
    AllocatedNum.mul a b) := by
  refine SCon.accounted (SCon.numBind fun _ => SCon.numBind fun _ => SCon.allocBind fun _ =>
    SCon.enforceBind noVar (N := 0) (A := 0) ?_ SCon.pure)
  rintro x (((hx | rfl) | rfl) | rfl)
  · exact hx.elim
  · right; left; coeffs; simp
  · right; right; left; coeffs; simp
  · right; right; right; coeffs; simp

/-- A variable may be mentioned and still be unconstrained: here its coefficients cancel. -/
example : ¬ Constraining 1 0 (do
    let x ← Synth.alloc "x" (.error .assignmentMissing)
    Synth.enforce "cancel" (fun lc => lc + x.1 - x.1) (fun lc => lc + Var.one) (fun lc => lc) : Synth F Unit) := by
  intro h
  obtain ⟨r, hr, h⟩ := h [.alloc false "x" (.aux 0) none, .enforce "cancel" ((⟨[]⟩ : LC F) + Var.aux 0 - Var.aux 0)
    ((⟨[]⟩ : LC F) + Var.one) ⟨[]⟩] () (.allocSkip _ (.enforce (.ret _))) ⟨rfl, trivial⟩ 0 le_rfl (by simp [numAux])
  simp only [consOf, List.filterMap_cons, List.filterMap_nil, List.mem_cons, List.not_mem_nil, or_false] at hr
  subst hr
  rcases h with h | h | h
  · exact h (by coeffs; simp)
  · exact h (by coeffs; simp [Var.one])
  · exact h (by coeffs)

/-- The documentation example over the scalar field of BLS12-381. -/
example : ∃ t : List (Ev BlsScalar), KeyTrace (Preimage.MyCircuit.mk none).synthesize t ∧ (consOf t).length ≤ 81780 := by
  obtain ⟨t, h1, h2, -⟩ := C51_documentation (F := BlsScalar) (G1 := BlsScalar) (G2 := BlsScalar) (by decide) (by decide)
  exact ⟨t, h1, h2⟩

/-- Words and an operand list for `C51_words`. -/
example : 5 * (2 ^ 32 - 1) < 2 ^ 35 := by norm_num

end Examples

end Bellman

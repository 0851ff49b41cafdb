import Verif.Proofs.CancelBlake
import Verif.Props.Mimc
import Verif.Props.Constrained

/-!
# C52: SHA-256, BLAKE2s and the documentation example can be proved, unconditionally

The prover counts a variable as used in the `a` (`b`) part of the constraints as soon as a term with a non-zero coefficient is written
there, but the parameters have no element for it if its coefficients add up to zero everywhere; then no proof can be made (C31).  For
the SHA-256 gadget this does not happen: the sums of `MultiEq` never cancel, since every bit is added with one sign only and all
coefficients stay below the modulus.  In BLAKE2s the same bit can be added with both signs, but then in different ranges of bits.
-/

set_option linter.unusedSectionVars false

namespace Bellman

open PrimeField

variable {F : Type} [PrimeField F] {G1 G2 GT : Type} [AddCommGroup G1] [AddCommGroup G2] [AddCommGroup GT] [Module F G1] [Module F G2]
  [Module F GT] [DecidableEq G1] [DecidableEq G2] [DecidableEq GT]

/-- No auxiliary variable cancels in the `a` parts of the constraints, no variable in the `b` parts. -/
def RowsOk (rows : List (Row F)) : Prop :=
  (∀ j, (∃ r ∈ rows, ∃ c, c ≠ 0 ∧ (Var.aux j, c) ∈ r.1.terms) → ∃ r ∈ rows, r.1.coeffOf (.aux j) ≠ 0) ∧
    ∀ x, (∃ r ∈ rows, ∃ c, c ≠ 0 ∧ (x, c) ∈ r.2.1.terms) → ∃ r ∈ rows, r.2.1.coeffOf x ≠ 0

/-- The bit is a constant, or an auxiliary variable with a non-zero coefficient in the `a` part of some constraint; what
`AllocatedBit::alloc` returns is such a bit. -/
def Usable (rows : List (Row F)) : Boolean → Prop
  | .constant _ => True
  | .is b | .not b => ∃ j, b.var = .aux j ∧ ∃ r ∈ rows, r.1.coeffOf (.aux j) ≠ 0

/-- The kinds that belong to constraints. -/
theorem snc_start {α : Type} {m : Synth F α} {Q : (ℕ → Kind) → α → Prop}
    (h : ∀ t a, Exec m.run t (some (.ok a)) → Numbered 1 0 t → RowsOk (consOf t) ∧
      ∀ g, (∀ j, HitA (consOf t) j → g j = .safe) → Q g a) : SNC 1 0 (fun _ => .pos) Q m := by
  classical
  intro t a he ht
  obtain ⟨h1, h2⟩ := h t a he ht
  refine ⟨fun j => if HitA (consOf t) j then .safe else .pos, fun j hj => absurd hj (Nat.not_lt_zero j), ⟨fun j hj => ?_, fun j hj => ?_, fun x hx => ?_⟩,
    h2 _ fun j hj => if_pos hj⟩
  · split at hj
    · rename_i hh; exact .inr hh
    · cases hj
  · exact .inr (h1.1 j hj)
  · exact h1.2 x hx

theorem snc_rowsOk {α : Type} {m : Synth F α} {Q : (ℕ → Kind) → α → Prop} (h : SNC 1 0 (fun _ => .pos) Q m) {t : List (Ev F)} {a : α}
    (he : Exec m.run t (some (.ok a))) (ht : Numbered 1 0 t) : RowsOk (consOf t) := by
  obtain ⟨g', -, hf, -⟩ := h t a he ht
  refine ⟨fun j hj => ?_, fun x hx => hf.b x hx⟩
  rcases hf.a j hj with h1 | h1
  · cases h1
  · exact h1

/-- Usable bits are safe. -/
theorem snc_usable {m : Synth F (List Boolean)}
    (hm : ∀ t bits, Exec m.run t (some (.ok bits)) → Numbered 1 0 t → RowsOk (consOf t) ∧ ∀ b ∈ bits, Usable (consOf t) b) :
    SNC 1 0 (fun _ => .pos) (fun g' l => ∀ b ∈ l, SafeB g' b) m := snc_start fun t bits he ht => by
  obtain ⟨h1, h2⟩ := hm t bits he ht
  refine ⟨h1, fun g hg b hb => ?_⟩
  have := h2 b hb
  rcases b with b | b | c
  · obtain ⟨j, e1, e2⟩ := this; exact ⟨j, e1, hg j e2⟩
  · obtain ⟨j, e1, e2⟩ := this; exact ⟨j, e1, hg j e2⟩
  · trivial

/-- C52 for the SHA-256 gadget: if nothing cancels in the constraints of a circuit that makes input bits, and each of them is usable,
then nothing cancels after hashing them, for every input length. -/
theorem C52_sha256 {m : Synth F (List Boolean)} (hl : SLocal 1 0 m)
    (hm : ∀ t bits, Exec m.run t (some (.ok bits)) → Numbered 1 0 t → RowsOk (consOf t) ∧ ∀ b ∈ bits, Usable (consOf t) b)
    (t : List (Ev F)) (hash : List Boolean) (he : Exec (m >>= Sha256.sha256).run t (some (.ok hash))) (ht : Numbered 1 0 t) :
    RowsOk (consOf t) ∧ (Qap.ofTrace t).NoCancel := by
  have h : SNC 1 0 (fun _ => .pos) (fun g' l => ∀ b ∈ l, SafeB g' b) (m >>= Sha256.sha256) :=
    SNC.bind (snc_usable hm) hl fun k' g' bits _ _ kb q => Sha256.snc_sha256 one_pos kb q
  exact ⟨snc_rowsOk h he ht, h.noCancel he ht⟩

/-- C52 for the BLAKE2s gadget: likewise, for every input length and every personalization. -/
theorem C52_blake2s {m : Synth F (List Boolean)} (hl : SLocal 1 0 m)
    (hm : ∀ t bits, Exec m.run t (some (.ok bits)) → Numbered 1 0 t → RowsOk (consOf t) ∧ ∀ b ∈ bits, Usable (consOf t) b)
    (pers : List (BitVec 8)) (t : List (Ev F)) (hash : List Boolean)
    (he : Exec (m >>= fun bits => Blake2s.blake2s bits pers).run t (some (.ok hash))) (ht : Numbered 1 0 t) :
    RowsOk (consOf t) ∧ (Qap.ofTrace t).NoCancel := by
  have h : SNC 1 0 (fun _ => .pos) (fun g' l => Once g' l) (m >>= fun bits => Blake2s.blake2s bits pers) :=
    SNC.bind (snc_usable hm) hl fun k' g' bits _ _ kb q => Blake2s.snc_blake2s one_pos pers kb q
  exact ⟨snc_rowsOk h he ht, h.noCancel he ht⟩

/-- C52: nothing cancels either when the hash is packed into public inputs. -/
theorem C52_packed {m : Synth F (List Boolean)} (hl : SLocal 1 0 m)
    (hm : ∀ t bits, Exec m.run t (some (.ok bits)) → Numbered 1 0 t → RowsOk (consOf t) ∧ ∀ b ∈ bits, Usable (consOf t) b)
    (pers : List (BitVec 8)) (t : List (Ev F)) (ht : Numbered 1 0 t)
    (he : Exec (m >>= fun bits => Sha256.sha256 bits >>= packIntoInputs).run t (some (.ok ())) ∨
      Exec (m >>= fun bits => Blake2s.blake2s bits pers >>= packIntoInputs).run t (some (.ok ()))) :
    RowsOk (consOf t) ∧ (Qap.ofTrace t).NoCancel := by
  rcases he with he | he
  · have h : SNC 1 0 (fun _ => .pos) (fun _ _ => True) (m >>= fun bits => Sha256.sha256 bits >>= packIntoInputs) :=
      SNC.bind (snc_usable hm) hl fun k' g' bits _ _ kb q =>
        SNC.bind (Sha256.snc_sha256 one_pos kb q) (Sha256.slocal_sha256 one_pos kb) fun k2 g2 hash _ _ kh q2 => snc_packIntoInputs q2
    exact ⟨snc_rowsOk h he ht, h.noCancel he ht⟩
  · have h : SNC 1 0 (fun _ => .pos) (fun _ _ => True) (m >>= fun bits => Blake2s.blake2s bits pers >>= packIntoInputs) :=
      SNC.bind (snc_usable hm) hl fun k' g' bits _ _ kb q =>
        SNC.bind (Blake2s.snc_blake2s one_pos pers kb q) (Blake2s.slocal_blake2s one_pos pers kb) fun k2 g2 hash _ _ kh q2 =>
          snc_packIntoInputs_once q2
    exact ⟨snc_rowsOk h he ht, h.noCancel he ht⟩

/-- C52: nothing cancels in the documentation example. -/
theorem C52_documentation (c : Preimage.MyCircuit) (t : List (Ev F)) (he : Exec c.synthesize.run t (some (.ok ()))) (ht : Numbered 1 0 t) :
    (Qap.ofTrace t).NoCancel := (Preimage.snc_synthesize c).noCancel he ht

/-- C52, the run of the documentation, without any assumption that a step succeeds: except for a fraction `31938642312 / |F|` of the
trapdoors (about `2³⁵ / |F|`), `generate_parameters` succeeds for the circuit without a preimage, and then for every preimage of 80 bytes,
all blinding factors and all workers `create_proof` succeeds and `verify_proof` accepts the proof for the packed SHA-256d hash. -/
theorem C52_pipeline (h64 : 64 ≤ NUM_BITS F) (hS : 18 ≤ S F) (E : Engine F G1 G2 GT) (w : Worker) (g1 : G1) (g2 : G2)
    (hg1 : g1 ≠ 0) (hg2 : g2 ≠ 0) :
    ({x : F × F × F × F × F | ¬ ∃ params, generateParameters w (Preimage.MyCircuit.mk none).synthesize g1 g2
          x.1 x.2.1 x.2.2.1 x.2.2.2.1 x.2.2.2.2 = Res.ok params ∧
        ∀ (w' : Worker) (preimage : List (BitVec 8)) (r s : F), preimage.length = 80 → ∃ pf inputs,
          createProof w' (Preimage.MyCircuit.mk (some preimage)).synthesize params r s = Res.ok pf ∧
          computeMultipacking F (bytesToBitsLe (Spec.sha256d preimage)) = some inputs ∧
          verifyProof E (prepareVerifyingKey E params.vk) pf inputs = some (.ok ())} : Set _).ncard ≤ 31938642312 * p F ^ 4 := by
  have := PrimeField.finite (F := F)
  have hcard : Nat.card F = p F := PrimeField.card_eq
  obtain ⟨t, ht, c1, -, c2, -, hA⟩ := C51_documentation (F := F) (G1 := G1) (G2 := G2) h64 hS
  have hin : numIn t ≤ 5 := by
    obtain ⟨t', ht', -, hi⟩ := C44_key (F := F) h64
    rw [ht.unique ht', hi]
    have h63 : 63 ≤ CAPACITY F := by have := capacity_lt (F := F); omega
    exact Nat.lt_succ_iff.1 ((Nat.div_lt_iff_lt_mul (by omega)).2 (by omega))
  have hlen : (Qap.ofTrace t).rows.length = (consOf t).length + (numIn t + 1) := by simp [Qap.ofTrace, Qap.ofRows, inputRows]
  have hm : (Qap.ofTrace t).m ≤ 131072 := by
    show 2 ^ Nat.clog 2 (Qap.ofTrace t).rows.length ≤ 131072
    calc 2 ^ Nat.clog 2 (Qap.ofTrace t).rows.length ≤ 2 ^ 17 :=
          Nat.pow_le_pow_right (by norm_num) ((Nat.clog_le_iff_le_pow (by norm_num)).2 (by rw [hlen]; omega))
      _ = 131072 := by norm_num
  obtain ⟨bad, hb1, hb2⟩ := C31_regular_trace (G1 := G1) (G2 := G2) (R := fun _ _ : Unit => True) t ht
    (C52_documentation _ t ht.exec.exec ht.numbered) (by omega) (by omega) (by omega)
  refine (Set.ncard_le_ncard (t := _ ∪ {x : F × F × F × F × F | x.2.2.2.2 ∈ bad}) ?_ (Set.toFinite _)).trans
    ((Set.ncard_union_le _ _).trans (le_trans (add_le_add (hA w g1 g2 hg1) ?_)
      (b := 10645667842 * p F ^ 4 + 21292974470 * p F ^ 4) ?_))
  · rintro x hx
    by_contra hno
    rw [Set.mem_union, not_or] at hno
    obtain ⟨n1, n2⟩ := hno
    rw [Set.mem_ofPred_eq, not_not] at n1
    obtain ⟨params, hk⟩ := n1
    refine hx ⟨params, hk, fun w' m r s hm => ?_⟩
    obtain ⟨t1, h1, -⟩ := prover_synthesize (F := F) h64 hm
    obtain ⟨pf, hp⟩ := hb2 _ (fun hh => n2 hh) w w' _ g1 g2 _ _ _ _ r s params (Preimage.shape_synthesize (bitValues_same _ hm)) ⟨t1, h1⟩
      hg1 hg2 hk
    obtain ⟨xs, h2, h3⟩ := C44_accept h64 E w w' g1 g2 _ _ _ _ _ r s params pf m hm hk hp
    exact ⟨pf, xs, hp, h2, h3⟩
  · rw [ncard_last, hcard]
    refine Nat.mul_le_mul_right _ (hb1.trans ?_)
    have h1 : 2 * (numIn t + 1 + numAux t) * ((Qap.ofTrace t).m - 1) ≤ 2 * (5 + 1 + 81220) * (131072 - 1) :=
      Nat.mul_le_mul (by omega) (by omega)
    omega
  · rw [← Nat.add_mul]

/-! ### The hypotheses are met, and the property can fail -/

/-- The scalar field of BLS12-381. -/
example (w : Worker) := C52_pipeline (F := BlsScalar) (G1 := BlsScalar) (G2 := BlsScalar) (GT := BlsScalar) (by decide) (by decide)
  (fieldEngine BlsScalar) w 1 1 one_ne_zero one_ne_zero

/-- Freshly allocated bits are usable. -/
theorem usable_alloc (vs : List (Option Bool)) (t : List (Ev F)) (bits : List Boolean)
    (he : Exec (Preimage.allocPreimage 0 vs : Synth F _).run t (some (.ok bits))) (ht : Numbered 1 0 t) :
    RowsOk (consOf t) ∧ ∀ b ∈ bits, Usable (consOf t) b := by
  obtain ⟨g', -, hf, hq⟩ := Preimage.snc_allocPreimage (g := fun _ => .pos) one_pos 0 vs t bits he ht
  refine ⟨snc_rowsOk (Preimage.snc_allocPreimage one_pos 0 vs) he ht, fun b hb => ?_⟩
  have hs : ∀ j, g' j = .safe → HitA (consOf t) j := fun j hj => (hf.safe j hj).resolve_left (by simp)
  have := hq b hb
  rcases b with b | b | c
  · obtain ⟨j, e1, e2⟩ := this; exact ⟨j, e1, hs j e2⟩
  · obtain ⟨j, e1, e2⟩ := this; exact ⟨j, e1, hs j e2⟩
  · trivial

/-- Any number of freshly allocated bits can be hashed. -/
example (vs : List (Option Bool)) (t : List (Ev F)) (hash : List Boolean)
    (he : Exec (Preimage.allocPreimage 0 vs >>= Sha256.sha256).run t (some (.ok hash))) (ht : Numbered 1 0 t) :
    (Qap.ofTrace t).NoCancel :=
  (C52_sha256 (Preimage.slocal_allocPreimage one_pos 0 vs) (usable_alloc vs) t hash he ht).2

example (vs : List (Option Bool)) (pers : List (BitVec 8)) (t : List (Ev F)) (hash : List Boolean)
    (he : Exec (Preimage.allocPreimage 0 vs >>= fun bits => Blake2s.blake2s bits pers).run t (some (.ok hash))) (ht : Numbered 1 0 t) :
    (Qap.ofTrace t).NoCancel :=
  (C52_blake2s (Preimage.slocal_allocPreimage one_pos 0 vs) (usable_alloc vs) pers t hash he ht).2

/-- A circuit that chooses between a value and itself: `ch(a, a ⊕ b, a ⊕ b)`. -/
def sameChoice (v w : Option Bool) : Synth F Unit := do
  let a ← Synth.inNs "a" (AllocatedBit.alloc v)
  let b ← Synth.inNs "b" (AllocatedBit.alloc w)
  let x ← Synth.inNs "x" (Boolean.xor (.is a) (.is b))
  let _ ← Synth.inNs "ch" (Boolean.sha256Ch (.is a) x x)
  pure ()

/-- The constraints of the circuit: the last one has `(a ⊕ b) - (a ⊕ b)` as its `a` part. -/
def sameChoiceTrace (v₀ v₁ v₂ v₃ : Option F) : List (Ev F) :=
  [.push "a", .alloc false "boolean" (.aux 0) v₀, .enforce "boolean constraint" ⟨[(.one, 1), (.aux 0, -1)]⟩ ⟨[(.aux 0, 1)]⟩ ⟨[]⟩, .pop,
   .push "b", .alloc false "boolean" (.aux 1) v₁, .enforce "boolean constraint" ⟨[(.one, 1), (.aux 1, -1)]⟩ ⟨[(.aux 1, 1)]⟩ ⟨[]⟩, .pop,
   .push "x", .alloc false "xor result" (.aux 2) v₂,
    .enforce "xor constraint" ⟨[(.aux 0, 1), (.aux 0, 1)]⟩ ⟨[(.aux 1, 1)]⟩ ⟨[(.aux 0, 1), (.aux 1, 1), (.aux 2, -1)]⟩, .pop,
   .push "ch", .alloc false "ch" (.aux 3) v₃,
    .enforce "ch computation" ⟨[(.aux 2, 1), (.aux 2, -1)]⟩ ⟨[(.aux 0, 1)]⟩ ⟨[(.aux 3, 1), (.aux 2, -1)]⟩, .pop]

theorem sameChoice_key : KeyTrace (sameChoice none none) (sameChoiceTrace (F := F) none none none none) where
  exec := by
    repeat' first
      | apply Blind.push | apply Blind.pop | apply Blind.enforce | apply Blind.allocSkip | apply Blind.ret
  numbered := by
    repeat' constructor
  inScope := by
    simp [sameChoiceTrace, Scoped, Var.InRange, Var.one]

theorem shape_sameChoice (v w v' w' : Option Bool) : SShape (F := F) (fun _ _ => True) (sameChoice v w) (sameChoice v' w') :=
  SShape.bind (SShape.inNs _ (AllocatedBit.shape_alloc v v')) fun a a' ha =>
  SShape.bind (SShape.inNs _ (AllocatedBit.shape_alloc w w')) fun b b' hb =>
  SShape.bind (SShape.inNs _ (Boolean.shape_xor ha hb)) fun x x' hx =>
  SShape.bind (SShape.inNs _ (Boolean.shape_sha256Ch ha hx.1 hx.1)) fun _ _ _ => SShape.pure trivial

theorem sameChoice_constrained (i : ℕ) (hi : i < numAux (sameChoiceTrace (F := F) none none none none)) :
    Constrained (consOf (sameChoiceTrace (F := F) none none none none)) (.aux i) := by
  replace hi : i < 4 := hi
  have hmem : ∀ r ∈ consOf (sameChoiceTrace (F := F) none none none none),
      r.1.coeffOf (.aux i) ≠ 0 ∨ r.2.1.coeffOf (.aux i) ≠ 0 ∨ r.2.2.coeffOf (.aux i) ≠ 0 →
      Constrained (consOf (sameChoiceTrace (F := F) none none none none)) (.aux i) := fun r hr h => ⟨r, hr, h⟩
  interval_cases i
  · exact hmem (⟨[(.one, 1), (.aux 0, -1)]⟩, ⟨[(.aux 0, 1)]⟩, ⟨[]⟩) (by simp [sameChoiceTrace, consOf]) (by simp [LC.coeffOf])
  · exact hmem (⟨[(.one, 1), (.aux 1, -1)]⟩, ⟨[(.aux 1, 1)]⟩, ⟨[]⟩) (by simp [sameChoiceTrace, consOf]) (by simp [LC.coeffOf])
  · exact hmem (⟨[(.aux 2, 1), (.aux 2, -1)]⟩, ⟨[(.aux 0, 1)]⟩, ⟨[(.aux 3, 1), (.aux 2, -1)]⟩) (by simp [sameChoiceTrace, consOf])
      (by simp [LC.coeffOf])
  · exact hmem (⟨[(.aux 2, 1), (.aux 2, -1)]⟩, ⟨[(.aux 0, 1)]⟩, ⟨[(.aux 3, 1), (.aux 2, -1)]⟩) (by simp [sameChoiceTrace, consOf])
      (by simp [LC.coeffOf])

theorem sameChoice_complete (x y : Bool) : ∃ t, ProverTrace (sameChoice (F := F) (some x) (some y)) t ∧ Sat (witness t) t := by
  refine ⟨sameChoiceTrace (some (boolF x)) (some (boolF y)) (some (boolF (x ^^ y))) (some (boolF (x ^^ y))), ⟨?_, ?_⟩, ?_⟩
  · cases x <;> cases y <;> (
    repeat' first
      | apply Honest.push | apply Honest.pop | apply Honest.enforce | refine Honest.allocRun _ _ rfl ?_ | apply Honest.ret)
  · repeat' constructor
  · intro n a b c h
    simp only [sameChoiceTrace, List.mem_cons, reduceCtorEq, Ev.enforce.injEq, List.not_mem_nil, or_false, false_or] at h
    rcases h with ⟨-, rfl, rfl, rfl⟩ | ⟨-, rfl, rfl, rfl⟩ | ⟨-, rfl, rfl, rfl⟩ | ⟨-, rfl, rfl, rfl⟩ <;> cases x <;> cases y <;>
      simp [sameChoiceTrace, witness, assign, inVals, auxVals, LC.eval, boolF, Var.one]

/-- C52, its limit: bit gadgets alone can cancel.  For the circuit `ch(a, a ⊕ b, a ⊕ b)`, which every pair of bits satisfies, and for which
`generate_parameters` fails for a fraction `34 / |F|` of the trapdoors only, no parameters let `create_proof` succeed. -/
theorem C52_cancels (hS : 4 ≤ S F) :
    (∀ x y : Bool, ∃ t, ProverTrace (sameChoice (F := F) (some x) (some y)) t ∧ Sat (witness t) t) ∧
    (∀ (w : Worker) (g1 : G1) (g2 : G2), g1 ≠ 0 →
      ({x : F × F × F × F × F | ¬ ∃ params, generateParameters w (sameChoice none none) g1 g2 x.1 x.2.1 x.2.2.1 x.2.2.2.1 x.2.2.2.2 =
        Res.ok params} : Set _).ncard ≤ 34 * p F ^ 4) ∧
    ∀ (w w' : Worker) (g1 : G1) (g2 : G2) (α β γ δ τ r s : F) (x y : Option Bool) (params : Parameters G1 G2) (pf : Proof G1 G2),
      generateParameters w (sameChoice none none) g1 g2 α β γ δ τ = Res.ok params →
      createProof w' (sameChoice x y) params r s ≠ Res.ok pf := by
  refine ⟨fun x y => ?_, fun w g1 g2 hg1 => ?_, fun w w' g1 g2 α β γ δ τ r s x y params pf hk => ?_⟩
  · exact sameChoice_complete x y
  · have hlen : (Qap.ofTrace (sameChoiceTrace (F := F) none none none none)).rows.length = 5 := rfl
    have hg := Qap.ofTrace_good (sameChoiceTrace (F := F) none none none none)
      (by rw [hlen]; exact le_trans (by norm_num) (Nat.pow_le_pow_right (by norm_num) (show 3 ≤ S F - 1 by omega)))
    have hcl : Nat.clog 2 5 = 3 := by decide
    have h := C46_constrained (G2 := G2) w _ g1 g2 hg1 _ sameChoice_key ?_
      (le_trans (show 5 ≤ 2 ^ 3 by norm_num) (Nat.pow_le_pow_right (by norm_num) (show 3 ≤ S F - 1 by omega))) (.inl ?_) (.inr (show 0 < 4 by norm_num))
    · rw [hg.m, hlen, hcl] at h
      exact h
    · exact sameChoice_constrained
    · show Nat.clog 2 5 < 32
      rw [hcl]; norm_num
  · refine C31_cancel (shape_sameChoice none none x y) w w' g1 g2 α β γ δ τ r s _ sameChoice_key (.aux 2) ?_ (.inl ⟨?_, ?_⟩) params hk pf
    · simp [Qap.vars, Qap.ofTrace, Qap.ofRows, sameChoiceTrace, numAux]
    · refine ⟨(⟨[(.aux 2, 1), (.aux 2, -1)]⟩, ⟨[(.aux 0, 1)]⟩, ⟨[(.aux 3, 1), (.aux 2, -1)]⟩), ?_, 1, one_ne_zero, .head _⟩
      simp [Qap.ofTrace, Qap.ofRows, sameChoiceTrace, consOf]
    · simp [Qap.ofTrace, Qap.ofRows, sameChoiceTrace, consOf, inputRows, LC.coeffOf, Var.one]

end Bellman

import Verif.Proofs.HashEval
import Verif.Proofs.MultiEq
import Verif.Proofs.UInt32
import Verif.Proofs.Sha256
import Verif.Proofs.Blake2s
import Verif.Proofs.Realize
import Verif.FieldInstances

/-!
# C14 to C17: batched equalities, 32-bit words, hashes

See Props/Boolean.lean for `Sound` and `Complete`.
-/

set_option linter.unusedSectionVars false

namespace Bellman

open PrimeField List

variable {F : Type} [PrimeField F] {ρ : Var → F}

/-! ### C14 -/

/-- What a program may do with a `MultiEq`: call `enforce_equal(num_bits, lhs, rhs)`, or use it as the constraint system of
any other gadget. -/
inductive MItem (F : Type) where
  | eq (numBits : ℕ) (l r : LC F)
  | other (m : Synth F Unit)

/-- The program that performs the items in order. -/
def runItems : List (MItem F) → MSynth F Unit
  | [] => pure ()
  | .eq n l r :: is => do
    MEq.enforceEqual n l r
    runItems is
  | .other m :: is => do
    MSynth.lift m
    runItems is

private theorem wpS_runItems (h1 : ρ .one = 1) (items : List (MItem F))
    (hb : ∀ n l r, MItem.eq n l r ∈ items → ∃ a b : ℕ, a < 2 ^ n ∧ b < 2 ^ n ∧ l.eval ρ = (a : F) ∧ r.eval ρ = (b : F))
    {s : MEq F} {P : Prop} (hs : MEq.SInv ρ s P) :
    MSynth.wpS ρ (runItems items) s fun _ s =>
      MEq.SInv ρ s (P ∧ ∀ n l r, MItem.eq n l r ∈ items → l.eval ρ = r.eval ρ) := by
  induction items generalizing s P with
  | nil =>
    rw [runItems, MSynth.wpS_pure]
    exact hs.mono fun h => ⟨h, by simp⟩
  | cons i items ih =>
    have hb' : ∀ n l r, MItem.eq n l r ∈ items →
        ∃ a b : ℕ, a < 2 ^ n ∧ b < 2 ^ n ∧ l.eval ρ = (a : F) ∧ r.eval ρ = (b : F) :=
      fun n l r h => hb n l r (mem_cons_of_mem _ h)
    cases i with
    | eq n l r =>
      obtain ⟨a, b, ha, hb₁, hl, hr⟩ := hb n l r mem_cons_self
      rw [runItems, MSynth.wpS_bind]
      refine MSynth.wpS_mono (MEq.wpS_enforceEqual h1 hs ⟨hl, ha⟩ ⟨hr, hb₁⟩) fun _ s hs => ?_
      refine MSynth.wpS_mono (ih hb' hs) fun _ s hs => hs.mono ?_
      rintro ⟨⟨hP, rfl⟩, h⟩
      refine ⟨hP, fun n' l' r' hm => ?_⟩
      rcases mem_cons.1 hm with e | hm
      · cases e; rw [hl, hr]
      · exact h _ _ _ hm
    | other m =>
      rw [runItems, MSynth.wpS_bind, MSynth.wpS_lift]
      refine Synth.wpS_mono (Boolean.wpS_triv m) fun _ _ => ?_
      refine MSynth.wpS_mono (ih hb' hs) fun _ s hs => hs.mono ?_
      rintro ⟨hP, h⟩
      refine ⟨hP, fun n' l' r' hm => ?_⟩
      rcases mem_cons.1 hm with e | hm
      · cases e
      · exact h _ _ _ hm

/-- C14, soundness: for every sequence of `enforce_equal` calls, interleaved with arbitrary other use of the constraint
system, whose sides are integers below `2^num_bits`, the emitted constraints imply every individual equality. -/
theorem C14_sound (h1 : ρ .one = 1) (items : List (MItem F))
    (hb : ∀ n l r, MItem.eq n l r ∈ items → ∃ a b : ℕ, a < 2 ^ n ∧ b < 2 ^ n ∧ l.eval ρ = (a : F) ∧ r.eval ρ = (b : F)) :
    Sound ρ (MSynth.withMultiEq (runItems items)) fun _ =>
      ∀ n l r, MItem.eq n l r ∈ items → l.eval ρ = r.eval ρ := by
  refine (Synth.wpS_iff ..).1 (MSynth.wpS_withMultiEq h1 ?_)
  exact MSynth.wpS_mono (wpS_runItems h1 items hb MEq.SInv.new) fun _ s hs => hs.mono fun h => h.2

/-- C14, completeness: if every individual equality holds, bit sizes are below `CAPACITY` and the other items are complete,
then all emitted constraints hold. -/
theorem C14_complete (h1 : ρ .one = 1) (items : List (MItem F))
    (hn : ∀ n l r, MItem.eq n l r ∈ items → n < CAPACITY F ∧ l.eval ρ = r.eval ρ)
    (ho : ∀ m, MItem.other m ∈ items → Synth.wpC ρ m fun _ => True) :
    Complete ρ (MSynth.withMultiEq (runItems items)) fun _ => True := by
  refine Synth.wpC_sound (MSynth.wpC_withMultiEq h1 ?_)
  have key : ∀ s : MEq F, MEq.CInv ρ s → MSynth.wpC ρ (runItems items) s fun _ s => MEq.CInv ρ s := by
    induction items with
    | nil => intro s hs; exact hs
    | cons i items ih =>
      intro s hs
      have ih := ih (fun n l r h => hn n l r (mem_cons_of_mem _ h)) (fun m h => ho m (mem_cons_of_mem _ h))
      cases i with
      | eq n l r =>
        rw [runItems, MSynth.wpC_bind]
        have := hn n l r mem_cons_self
        exact MSynth.wpC_mono (MEq.wpC_enforceEqual h1 hs this.2 this.1) fun _ s hs => ih s hs
      | other m =>
        rw [runItems, MSynth.wpC_bind, MSynth.wpC_lift]
        exact Synth.wpC_mono (ho m mem_cons_self) fun _ _ => ih s hs
  exact MSynth.wpC_mono (key _ MEq.CInv.new) fun _ s hs => ⟨hs, trivial⟩

/-- Programs without allocations (proof device for `C14_iff`). -/
private inductive NoAlloc {α : Type} : Circ F α → Prop where
  | ret (a : α) : NoAlloc (.ret a)
  | panic (m) : NoAlloc (.panic m)
  | enforce {n a b c k} : NoAlloc k → NoAlloc (.enforce n a b c k)

private theorem NoAlloc.honest {α : Type} {c : Circ F α} (h : NoAlloc c) {t r} (he : Exec c t r) :
    Honest c t r ∧ Agrees ρ t := by
  induction h generalizing t with
  | ret a => cases he; exact ⟨.ret a, Agrees_nil ρ⟩
  | panic m => cases he; exact ⟨.panic m, Agrees_nil ρ⟩
  | enforce _ ih =>
    cases he with
    | enforce he => exact ⟨.enforce (ih he).1, (Agrees_enforce ..).2 (ih he).2⟩

private theorem NoAlloc.bind {α β : Type} {c : Circ F α} {g : α → Circ F β} (h : NoAlloc c) (hg : ∀ a, NoAlloc (g a)) :
    NoAlloc (c.bind g) := by
  induction h with
  | ret a => exact hg a
  | panic m => exact .panic m
  | enforce _ ih => exact .enforce ih

private theorem noAlloc_runItems (cs : List (ℕ × LC F × LC F)) (s : MEq F) :
    NoAlloc ((runItems (cs.map fun c => .eq c.1 c.2.1 c.2.2)).run.run s) := by
  induction cs generalizing s with
  | nil => exact .ret _
  | cons c cs ih =>
    rw [map_cons, runItems, MSynth.run_bind]
    refine NoAlloc.bind ?_ fun r => ?_
    · show NoAlloc (if _ then _ else _)
      have hadd : ∀ s : MEq F, NoAlloc (if CAPACITY F > s.bitsUsed + c.1 then
          (.ret (.ok (), ⟨s.ops, s.bitsUsed + c.1, s.lhs + ((2 : F) ^ s.bitsUsed, c.2.1),
            s.rhs + ((2 : F) ^ s.bitsUsed, c.2.2)⟩) : Circ F (Except SynthesisError Unit × MEq F))
          else .panic "assert!((Scalar::CAPACITY as usize) > (self.bits_used + num_bits))") := by
        intro s; split
        · exact .ret _
        · exact .panic _
      split
      · exact .enforce (hadd _)
      · exact hadd _
    · rcases r with ⟨_ | _, s⟩
      · exact .ret _
      · exact ih s

private theorem noAlloc_multiEq (cs : List (ℕ × LC F × LC F)) :
    NoAlloc (MSynth.withMultiEq (runItems (cs.map fun c => .eq c.1 c.2.1 c.2.2))).run :=
  NoAlloc.bind (noAlloc_runItems cs MEq.new) fun r => by
    show NoAlloc (if _ then _ else _)
    split
    · exact .enforce (.ret _)
    · exact .ret _

private theorem noAlloc_agrees (cs : List (ℕ × LC F × LC F)) {t r}
    (he : Exec (MSynth.withMultiEq (runItems (cs.map fun c => .eq c.1 c.2.1 c.2.2))).run t r) : Agrees ρ t :=
  ((noAlloc_multiEq cs).honest he).2

/-- C14, both directions at once: for every run of a sequence of `enforce_equal` calls with bit sizes below `CAPACITY` and
sides below `2^num_bits`, the emitted constraints (including the one emitted on drop) hold if and only if every individual
equality holds. -/
theorem C14_iff (h1 : ρ .one = 1) (cs : List (ℕ × LC F × LC F)) (hn : ∀ c ∈ cs, c.1 < CAPACITY F)
    (hb : ∀ c ∈ cs, ∃ a b : ℕ, a < 2 ^ c.1 ∧ b < 2 ^ c.1 ∧ c.2.1.eval ρ = (a : F) ∧ c.2.2.eval ρ = (b : F))
    {t : List (Ev F)}
    (he : Exec (MSynth.withMultiEq (runItems (cs.map fun c => .eq c.1 c.2.1 c.2.2))).run t (some (.ok ()))) :
    Sat ρ t ↔ ∀ c ∈ cs, c.2.1.eval ρ = c.2.2.eval ρ := by
  constructor
  · intro hs c hc
    refine C14_sound h1 (cs.map fun c => .eq c.1 c.2.1 c.2.2) ?_ t () he hs c.1 c.2.1 c.2.2 (mem_map_of_mem hc)
    intro n l r hm
    obtain ⟨c, hc, e⟩ := mem_map.1 hm
    cases e
    exact hb c hc
  · intro h
    obtain ⟨hh, ha⟩ := (noAlloc_multiEq cs).honest (ρ := ρ) he
    refine (C14_complete h1 (cs.map fun c => .eq c.1 c.2.1 c.2.2) ?_ ?_ t _ hh ha).1
    · intro n l r hm
      obtain ⟨c, hc, e⟩ := mem_map.1 hm
      cases e
      exact ⟨hn c hc, h c hc⟩
    · intro m hm
      obtain ⟨c, hc, e⟩ := mem_map.1 hm
      cases e

section NonVacuous
/-- Ten 4-bit equalities over the 16-bit dummy field (capacity 15): several constraints are emitted. -/
private def eqs10 : List (ℕ × LC DummyFr × LC DummyFr) :=
  List.replicate 10 (4, ⟨[(.aux 0, 1)]⟩, ⟨[(.aux 1, 3)]⟩)

/-- `Aux(0) = 15`, `Aux(1) = 5`. -/
private def rho10 : Var → DummyFr := assign [1] [15, 5]

example : (∀ c ∈ eqs10, c.1 < CAPACITY DummyFr) ∧ (∀ c ∈ eqs10, ∃ a b : ℕ, a < 2 ^ c.1 ∧ b < 2 ^ c.1 ∧
    c.2.1.eval rho10 = (a : DummyFr) ∧ c.2.2.eval rho10 = (b : DummyFr)) ∧
    ∃ t, Exec (MSynth.withMultiEq (runItems (eqs10.map fun c => .eq c.1 c.2.1 c.2.2))).run t (some (.ok ())) ∧
      Sat rho10 t := by
  have hc : ∀ c ∈ eqs10, c = (4, ⟨[(.aux 0, 1)]⟩, ⟨[(.aux 1, 3)]⟩) := fun c h => eq_of_mem_replicate h
  have hcap : 4 < CAPACITY DummyFr := by decide
  have hev : (⟨[(.aux 0, 1)]⟩ : LC DummyFr).eval rho10 = ((15 : ℕ) : DummyFr) ∧
      (⟨[(.aux 1, 3)]⟩ : LC DummyFr).eval rho10 = ((15 : ℕ) : DummyFr) := by decide +kernel
  have h1 : ∀ c ∈ eqs10, c.1 < CAPACITY DummyFr := fun c h => by rw [hc c h]; exact hcap
  have h2 : ∀ c ∈ eqs10, ∃ a b : ℕ, a < 2 ^ c.1 ∧ b < 2 ^ c.1 ∧
      c.2.1.eval rho10 = (a : DummyFr) ∧ c.2.2.eval rho10 = (b : DummyFr) := fun c h => by
    rw [hc c h]; exact ⟨15, 15, by norm_num, by norm_num, hev.1, hev.2⟩
  refine ⟨h1, h2, ?_⟩
  have h3 : ∀ c ∈ eqs10, c.2.1.eval rho10 = c.2.2.eval rho10 := fun c h => by
    rw [hc c h]; exact hev.1.trans hev.2.symm
  obtain ⟨t, r, hh, -⟩ :=
    Circ.exists_honest (MSynth.withMultiEq (runItems (eqs10.map fun c => .eq c.1 c.2.1 c.2.2))).run 1 2
  have := C14_complete (ρ := rho10) rfl (eqs10.map fun c => .eq c.1 c.2.1 c.2.2) (fun n l r hm => by
    obtain ⟨c, hc, e⟩ := mem_map.1 hm
    cases e
    exact ⟨h1 c hc, h3 c hc⟩) (fun m hm => by
    obtain ⟨c, hc, e⟩ := mem_map.1 hm
    cases e) t r hh (noAlloc_agrees eqs10 hh.exec)
  obtain ⟨hs, a, rfl, -⟩ := this
  exact ⟨t, hh.exec, hs⟩

end NonVacuous

private theorem has_replicate {ρ : Var → BlsScalar} (hx : Extends [1] [1] ρ) (n : ℕ) :
    Forall₂ (Boolean.Has ρ) (List.replicate n (.is ⟨.aux 0, some true⟩)) (List.replicate n true) := by
  have hb : (Boolean.is ⟨.aux 0, some true⟩).Has ρ true := ⟨rfl, hx (.aux 0) (by simp [Var.InRange])⟩
  induction n with
  | zero => exact .nil
  | succ n ih => exact .cons hb ih

/-! ### C15

`u.Word ρ w`: the 32 Booleans of `u` denote the bits of `w` under `ρ` (and constant bits agree with the `value` field if it is
set).  `u.HasWord ρ w`: the same, and `value = Some(w)` and every Boolean carries its bit. -/

namespace C15
open Bellman.UInt32

/-- C15: `Word` determines the word: it means the weighted sum of the 32 bits is the word. -/
theorem C15_word_spec {u : Bellman.UInt32} {w : BitVec 32} (h : u.Word ρ w) :
    u.bits.length = 32 ∧ ∃ xs, Forall₂ (Boolean.Bit ρ) u.intoBits xs ∧ bitsVal xs = w.toNat :=
  ⟨h.length, _, h.bits, bitsVal_wbits w⟩

/-- C15: `constant`. -/
theorem C15_constant (w : BitVec 32) : (constant w).HasWord ρ w := hasWord_constant w

/-- C15: `alloc` forces some 32-bit word. -/
theorem C15_alloc_sound (h1 : ρ .one = 1) (v : Option (BitVec 32)) : Sound ρ (alloc v) fun o => ∃ w, o.Word ρ w :=
  (Synth.wpS_iff ..).1 (wpS_alloc h1 v)

/-- C15: `alloc`, honest prover. -/
theorem C15_alloc_complete (h1 : ρ .one = 1) (w : BitVec 32) : Complete ρ (alloc (some w)) fun o => o.HasWord ρ w :=
  Synth.wpC_sound (wpC_alloc h1 w)

/-- C15: `into_bits` / `into_bits_be` list the bits least / most significant first. -/
theorem C15_intoBits {u : Bellman.UInt32} {w : BitVec 32} (h : u.Word ρ w) :
    Forall₂ (Boolean.Bit ρ) u.intoBits ((List.range 32).map fun i => w.getLsbD i) ∧
    Forall₂ (Boolean.Bit ρ) u.intoBitsBe ((List.range 32).map fun i => w.getMsbD i) := by
  refine ⟨h.bits, ?_⟩
  have := List.forall₂_reverse_iff.2 h.bits
  have e : (wbits w).reverse = (List.range 32).map fun i => w.getMsbD i := by
    apply List.ext_getElem
    · simp [wbits]
    · intro i h1 h2
      simp only [length_map, length_range] at h2
      simp [wbits, List.getElem_reverse, BitVec.getMsbD, h2]
  rwa [e] at this

/-- C15: `from_bits` reads 32 Booleans, least significant first; any other length panics. -/
theorem C15_fromBits {bits : List Boolean} {xs : List Bool} (h : Forall₂ (Boolean.Bit ρ) bits xs) :
    (fromBits bits = none ↔ bits.length ≠ 32) ∧
    ∀ u, fromBits bits = some u → ∃ w : BitVec 32, w.toNat = bitsVal xs ∧ u.Word ρ w := by
  constructor
  · unfold fromBits; split <;> simp_all
  · intro u hu
    have hl : xs.length = 32 := by
      rw [← h.length_eq]; unfold fromBits at hu; split at hu <;> simp_all
    refine ⟨ofWbits xs, ?_, word_fromBits h hu⟩
    rw [← bitsVal_wbits, wbits_ofWbits hl]

/-- C15: `from_bits` with honest Booleans also carries the right value. -/
theorem C15_fromBits_complete {bits : List Boolean} {xs : List Bool} (h : Forall₂ (Boolean.Has ρ) bits xs)
    (hl : bits.length = 32) : ∃ u w, fromBits bits = some u ∧ u.HasWord ρ w ∧ w.toNat = bitsVal xs := by
  obtain ⟨u, hu, hw⟩ := hasWord_fromBits h hl
  exact ⟨u, _, hu, hw, by rw [← bitsVal_wbits, wbits_ofWbits (h.length_eq ▸ hl)]⟩

/-- C15: `from_bits_be` is `from_bits` of the reversed list. -/
theorem C15_fromBitsBe (bits : List Boolean) : fromBitsBe bits = fromBits bits.reverse := fromBitsBe_eq bits

/-- C15: `rotr` rotates right by the amount modulo 32 (no constraints). -/
theorem C15_rotr {u : Bellman.UInt32} {w : BitVec 32} (k : ℕ) :
    (u.Word ρ w → (u.rotr k).Word ρ (w.rotateRight (k % 32))) ∧
    (u.HasWord ρ w → (u.rotr k).HasWord ρ (w.rotateRight (k % 32))) := by
  have e : w.rotateRight (k % 32) = w.rotateRight k := by
    rw [BitVec.rotateRight, BitVec.rotateRight, Nat.mod_mod]
  rw [e]
  exact ⟨fun h => word_rotr h k, fun h => hasWord_rotr h k⟩

/-- C15: `shr` shifts right by the amount modulo 32 (no constraints). -/
theorem C15_shr {u : Bellman.UInt32} {w : BitVec 32} (k : ℕ) :
    (u.Word ρ w → (u.shr k).Word ρ (w >>> (k % 32))) ∧
    (u.HasWord ρ w → (u.shr k).HasWord ρ (w >>> (k % 32))) :=
  ⟨fun h => word_shr h k, fun h => hasWord_shr h k⟩

/-- C15: `xor`. -/
theorem C15_xor_sound {a b : Bellman.UInt32} {v w : BitVec 32} (ha : a.Word ρ v) (hb : b.Word ρ w) :
    Sound ρ (xor a b) fun o => o.Word ρ (v ^^^ w) := (Synth.wpS_iff ..).1 (wpS_xor ha hb)

/-- C15: `xor`, honest prover. -/
theorem C15_xor_complete {a b : Bellman.UInt32} {v w : BitVec 32} (ha : a.HasWord ρ v) (hb : b.HasWord ρ w) :
    Complete ρ (xor a b) fun o => o.HasWord ρ (v ^^^ w) := Synth.wpC_sound (wpC_xor ha hb)

/-- C15: `sha256_ch`. -/
theorem C15_ch_sound (h1 : ρ .one = 1) {a b c : Bellman.UInt32} {u v w : BitVec 32} (ha : a.Word ρ u) (hb : b.Word ρ v)
    (hc : c.Word ρ w) : Sound ρ (sha256Ch a b c) fun o => o.Word ρ ((u &&& v) ^^^ (~~~u &&& w)) :=
  (Synth.wpS_iff ..).1 (wpS_sha256Ch h1 ha hb hc)

/-- C15: `sha256_ch`, honest prover. -/
theorem C15_ch_complete (h1 : ρ .one = 1) {a b c : Bellman.UInt32} {u v w : BitVec 32} (ha : a.HasWord ρ u)
    (hb : b.HasWord ρ v) (hc : c.HasWord ρ w) :
    Complete ρ (sha256Ch a b c) fun o => o.HasWord ρ ((u &&& v) ^^^ (~~~u &&& w)) :=
  Synth.wpC_sound (wpC_sha256Ch h1 ha hb hc)

/-- C15: `sha256_maj`. -/
theorem C15_maj_sound (h1 : ρ .one = 1) {a b c : Bellman.UInt32} {u v w : BitVec 32} (ha : a.Word ρ u) (hb : b.Word ρ v)
    (hc : c.Word ρ w) : Sound ρ (sha256Maj a b c) fun o => o.Word ρ ((u &&& v) ^^^ (u &&& w) ^^^ (v &&& w)) :=
  (Synth.wpS_iff ..).1 (wpS_sha256Maj h1 ha hb hc)

/-- C15: `sha256_maj`, honest prover. -/
theorem C15_maj_complete (h1 : ρ .one = 1) {a b c : Bellman.UInt32} {u v w : BitVec 32} (ha : a.HasWord ρ u)
    (hb : b.HasWord ρ v) (hc : c.HasWord ρ w) :
    Complete ρ (sha256Maj a b c) fun o => o.HasWord ρ ((u &&& v) ^^^ (u &&& w) ^^^ (v &&& w)) :=
  Synth.wpC_sound (wpC_sha256Maj h1 ha hb hc)

/-- C15: `addmany` on a fresh `MultiEq`, dropped afterwards: the sum modulo `2^32`. -/
theorem C15_addmany_sound (h1 : ρ .one = 1) {us : List Bellman.UInt32} {ws : List (BitVec 32)} (h : Forall₂ (Word ρ) us ws) :
    Sound ρ (MSynth.withMultiEq (addmany us)) fun o => o.Word ρ ws.sum := by
  refine (Synth.wpS_iff ..).1 (MSynth.wpS_withMultiEq h1 ?_)
  refine MSynth.wpS_mono (wpS_addmany h1 h MEq.SInv.new) fun o s => ?_
  rintro ⟨w, hw, hs⟩
  exact hs.mono fun h => h.2 ▸ hw

/-- C15: `addmany`, honest prover, 2 to 10 operands. -/
theorem C15_addmany_complete (h1 : ρ .one = 1) (h64 : 64 ≤ NUM_BITS F) {us : List Bellman.UInt32} {ws : List (BitVec 32)}
    (h : Forall₂ (HasWord ρ) us ws) (h2 : 2 ≤ us.length) (h10 : us.length ≤ 10) :
    Complete ρ (MSynth.withMultiEq (addmany us)) fun o => o.HasWord ρ ws.sum := by
  refine Synth.wpC_sound (MSynth.wpC_withMultiEq h1 ?_)
  exact MSynth.wpC_mono (wpC_addmany h1 h64 h h2 h10 MEq.CInv.new) fun o s hs => ⟨hs.2, hs.1⟩

/-- A chain of additions sharing one `MultiEq`, each adding the previous result to further operands. -/
def addChain (acc : Bellman.UInt32) : List (List Bellman.UInt32) → MSynth F Bellman.UInt32
  | [] => pure acc
  | us :: rest => do
    let r ← addmany (acc :: us)
    addChain r rest

/-- C15: `addmany` in context: any chain of additions that share one `MultiEq` (so that several sums are batched into one
constraint) adds everything up modulo `2^32`. -/
theorem C15_addChain_sound (h1 : ρ .one = 1) {acc : Bellman.UInt32} {w : BitVec 32} (ha : acc.Word ρ w)
    {us : List (List Bellman.UInt32)} {ws : List (List (BitVec 32))} (h : Forall₂ (Forall₂ (Word ρ)) us ws) :
    Sound ρ (MSynth.withMultiEq (addChain acc us)) fun o => o.Word ρ (w + ws.flatten.sum) := by
  refine (Synth.wpS_iff ..).1 (MSynth.wpS_withMultiEq h1 ?_)
  have key : ∀ (s : MEq F) (P : Prop) (w' : BitVec 32) (acc : Bellman.UInt32), acc.Word ρ w' → MEq.SInv ρ s P →
      MSynth.wpS ρ (addChain acc us) s fun o s => MEq.SInv ρ s (P ∧ o.Word ρ (w' + ws.flatten.sum)) := by
    clear ha
    induction h with
    | nil =>
      intro s P w' acc ha hs
      rw [addChain, MSynth.wpS_pure]
      exact hs.mono fun hP => ⟨hP, by simpa using ha⟩
    | @cons u v us ws hu _ ih =>
      intro s P w' acc ha hs
      rw [addChain, MSynth.wpS_bind]
      refine MSynth.wpS_mono (wpS_addmany h1 (.cons ha hu) hs) fun o s => ?_
      rintro ⟨x, hx, hs⟩
      refine MSynth.wpS_mono (ih s _ x o hx hs) fun o s hs => hs.mono ?_
      rintro ⟨⟨hP, rfl⟩, ho⟩
      refine ⟨hP, ?_⟩
      simpa [List.sum_append, BitVec.add_assoc] using ho
  exact MSynth.wpS_mono (key _ True w acc ha MEq.SInv.new) fun o s hs => hs.mono fun h => h.2

/-- The sum of three words, one of them allocated, over BLS12-381, wrapping around. -/
example : ∃ (ρ : Var → BlsScalar) (t : _) (us : _) (o : _), ρ .one = 1 ∧
    Forall₂ (Word ρ) us [0xffffffff#32, 0x80000000#32, 0x80000001#32] ∧
    Exec (MSynth.withMultiEq (addmany (F := BlsScalar) us)).run t (some (.ok o)) ∧ Sat ρ t ∧ o.Word ρ 0#32 := by
  have hw : ∀ ρ : Var → BlsScalar, Extends [1] [1] ρ →
      (⟨List.replicate 32 (.is ⟨.aux 0, some true⟩), some 0xffffffff#32⟩ : Bellman.UInt32).HasWord ρ 0xffffffff#32 := by
    intro ρ hx
    refine ⟨rfl, ?_⟩
    have e : wbits 0xffffffff#32 = List.replicate 32 true := by decide +kernel
    rw [e]
    exact has_replicate hx 32
  have hall : ∀ ρ : Var → BlsScalar, Extends [1] [1] ρ → Forall₂ (HasWord ρ)
      [⟨List.replicate 32 (.is ⟨.aux 0, some true⟩), some 0xffffffff#32⟩, constant 0x80000000#32, constant 0x80000001#32]
      [0xffffffff#32, 0x80000000#32, 0x80000001#32] := fun ρ hx =>
    .cons (hw ρ hx) (.cons (hasWord_constant _) (.cons (hasWord_constant _) .nil))
  obtain ⟨ρ, t, a, hx, he, -, -, hs, hq⟩ := Complete.realized (F := BlsScalar) [1] [1] fun ρ hx =>
    C15_addmany_complete hx.one (by decide) (hall ρ hx) (by simp) (by simp)
  exact ⟨ρ, t, _, a, hx.one, (hall ρ hx).imp fun _ _ h => h.word, he.exec, hs, hq.word⟩

end C15

/-! ### C16 -/

/-- C16: in every satisfying assignment the output of `sha256` is the SHA-256 digest of the input bits. -/
theorem C16_sha256_sound (h1 : ρ .one = 1) {input : List Boolean} {xs : List Bool}
    (h : Forall₂ (Boolean.Bit ρ) input xs) :
    Sound ρ (Sha256.sha256 input) fun o => Forall₂ (Boolean.Bit ρ) o (Spec.Sha256.sha256 xs) :=
  (Synth.wpS_iff ..).1 (Sha256.wpS_sha256 h1 h)

/-- C16: honest prover, every byte string. -/
theorem C16_sha256_complete (h1 : ρ .one = 1) (h64 : 64 ≤ NUM_BITS F) {input : List Boolean} {xs : List Bool}
    (h : Forall₂ (Boolean.Has ρ) input xs) (hl : input.length % 8 = 0) :
    Complete ρ (Sha256.sha256 input) fun o => Forall₂ (Boolean.Has ρ) o (Spec.Sha256.sha256 xs) :=
  Synth.wpC_sound (Sha256.wpC_sha256 h1 h64 h hl)

/-- C16: `sha256_block_no_padding`. -/
theorem C16_sha256Block_sound (h1 : ρ .one = 1) {input : List Boolean} {xs : List Bool}
    (h : Forall₂ (Boolean.Bit ρ) input xs) :
    Sound ρ (Sha256.sha256BlockNoPadding input) fun o => Forall₂ (Boolean.Bit ρ) o (Spec.Sha256.sha256Block xs) :=
  (Synth.wpS_iff ..).1 (Sha256.wpS_sha256BlockNoPadding h1 h)

/-- C16: `sha256_block_no_padding`, honest prover, 512 bits. -/
theorem C16_sha256Block_complete (h1 : ρ .one = 1) (h64 : 64 ≤ NUM_BITS F) {input : List Boolean} {xs : List Bool}
    (h : Forall₂ (Boolean.Has ρ) input xs) (hl : input.length = 512) :
    Complete ρ (Sha256.sha256BlockNoPadding input) fun o => Forall₂ (Boolean.Has ρ) o (Spec.Sha256.sha256Block xs) :=
  Synth.wpC_sound (Sha256.wpC_sha256BlockNoPadding h1 h64 h hl)

example : ∃ (ρ : Var → BlsScalar) (t : _) (o : _), ρ .one = 1 ∧
    Forall₂ (Boolean.Bit ρ) (List.replicate 24 (.is ⟨.aux 0, some true⟩)) (List.replicate 24 true) ∧
    Exec (Sha256.sha256 (F := BlsScalar) (List.replicate 24 (.is ⟨.aux 0, some true⟩))).run t (some (.ok o)) ∧ Sat ρ t := by
  obtain ⟨ρ, t, a, hx, he, -, -, hs, hq⟩ := Complete.realized (F := BlsScalar) [1] [1] fun ρ hx =>
    C16_sha256_complete hx.one (by decide) (has_replicate hx 24) (by simp)
  exact ⟨ρ, t, a, hx.one, (has_replicate hx 24).imp fun _ _ h => h.2, he.exec, hs⟩

/-! The specification is SHA-256: the standard's example `"abc"`.  For its
evaluation see Proofs/HashEval.lean. -/
section KnownAnswer
open Spec.Sha256 KnownAnswer

private def abc : List Bool := (List.range 24).map fun i => (0x616263 : ℕ).testBit (23 - i)

example : Spec.Sha256.beNat (Spec.Sha256.sha256 abc) =
    0xba7816bf8f01cfea414140de5dae2223b00361a396177a9cb410ff61f20015ad := by
  have h1 : (pad abc).length / 512 = 1 := by decide +kernel
  rw [Spec.Sha256.sha256, h1, hashBlocks, hashBlocks, compress_window]
  have h2 : (List.range 16).map (wordAt (pad abc)) = [0x61626380, 0, 0, 0, 0, 0, 0, 0, 0, 0, 0, 0, 0, 0, 0, 24] := by
    decide +kernel
  rw [h2]
  have h3 : (window 64 0 [0x61626380, 0, 0, 0, 0, 0, 0, 0, 0, 0, 0, 0, 0, 0, 0, 24] H0).add H0 =
      ⟨0xba7816bf, 0x8f01cfea, 0x414140de, 0x5dae2223, 0xb00361a3, 0x96177a9c, 0xb410ff61, 0xf20015ad⟩ := by
    decide +kernel
  rw [h3]
  decide +kernel

end KnownAnswer

/-! ### C17 -/

/-- C17: in every satisfying assignment the output of `blake2s` is the BLAKE2s-256 digest of the input. -/
theorem C17_blake2s_sound (h1 : ρ .one = 1) {input : List Boolean} {msg : List (BitVec 8)}
    (h : Forall₂ (Boolean.Bit ρ) input (Spec.Blake2s.bits msg)) (pers : List (BitVec 8)) :
    Sound ρ (Blake2s.blake2s input pers) fun o =>
      Forall₂ (Boolean.Bit ρ) o (Spec.Blake2s.bits (Spec.Blake2s.blake2s pers msg)) :=
  (Synth.wpS_iff ..).1 (Blake2s.wpS_blake2s h1 h pers)

/-- C17: honest prover, every byte string and every 8-byte personalization. -/
theorem C17_blake2s_complete (h1 : ρ .one = 1) (h64 : 64 ≤ NUM_BITS F) {input : List Boolean} {msg : List (BitVec 8)}
    (h : Forall₂ (Boolean.Has ρ) input (Spec.Blake2s.bits msg)) {pers : List (BitVec 8)} (hp : pers.length = 8) :
    Complete ρ (Blake2s.blake2s input pers) fun o =>
      Forall₂ (Boolean.Has ρ) o (Spec.Blake2s.bits (Spec.Blake2s.blake2s pers msg)) :=
  Synth.wpC_sound (Blake2s.wpC_blake2s h1 h64 h hp)

example : ∃ (ρ : Var → BlsScalar) (t : _) (o : _), ρ .one = 1 ∧
    Forall₂ (Boolean.Bit ρ) (List.replicate 16 (.is ⟨.aux 0, some true⟩)) (Spec.Blake2s.bits [0xff#8, 0xff#8]) ∧
    Exec (Blake2s.blake2s (F := BlsScalar) (List.replicate 16 (.is ⟨.aux 0, some true⟩)) [1, 2, 3, 4, 5, 6, 7, 8]).run t
      (some (.ok o)) ∧ Sat ρ t := by
  have e : Spec.Blake2s.bits [0xff#8, 0xff#8] = List.replicate 16 true := by decide +kernel
  obtain ⟨ρ, t, a, hx, he, -, -, hs, hq⟩ := Complete.realized (F := BlsScalar) [1] [1] fun ρ hx =>
    C17_blake2s_complete (msg := [0xff#8, 0xff#8]) (pers := [1, 2, 3, 4, 5, 6, 7, 8]) hx.one (by decide)
      (e ▸ has_replicate hx 16) rfl
  exact ⟨ρ, t, a, hx.one, e ▸ (has_replicate hx 16).imp fun _ _ h => h.2, he.exec, hs⟩

/-- The specification is BLAKE2s-256: RFC 7693 appendix B, `"abc"`. -/
example : Spec.Blake2s.blake2s [] [0x61, 0x62, 0x63] =
    [0x50, 0x8c, 0x5e, 0x8c, 0x32, 0x7c, 0x14, 0xe2, 0xe1, 0xa7, 0x2b, 0xa3, 0x4e, 0xeb, 0x45, 0x2f,
     0x37, 0x45, 0x8b, 0x20, 0x9e, 0xd6, 0x3a, 0x29, 0x4d, 0x99, 0x9b, 0x4c, 0x86, 0x67, 0x59, 0x82] := by decide +kernel

end Bellman

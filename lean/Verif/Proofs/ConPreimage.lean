import Verif.Proofs.ConHash
import Verif.Proofs.Preimage

/-!
# The documentation example constrains its variables
-/

namespace Bellman.Preimage

open PrimeField

set_option linter.unusedSectionVars false

variable {F : Type} [PrimeField F] {n k : ℕ}

theorem chunksAux_flatten_length {α : Type} {c fuel : ℕ} {l : List α} :
    ((chunksAux c fuel l).flatMap List.reverse).length ≤ l.length := by
  induction fuel generalizing l with
  | zero => simp [chunksAux]
  | succ fuel ih =>
    cases l with
    | nil => simp [chunksAux]
    | cons a l =>
      rw [chunksAux, List.flatMap_cons, List.length_append, List.length_reverse]
      have := ih (l := (a :: l).drop c)
      rw [List.length_drop] at this
      rw [List.length_take]
      omega

theorem flipBytes_length_le {α : Type} (l : List α) : (flipBytes l).length ≤ l.length := by
  unfold flipBytes chunks?
  rw [if_neg (by norm_num)]
  exact chunksAux_flatten_length

theorem con_allocPreimage (hn : 0 < n) (i : ℕ) (vs : List (Option Bool)) :
    SCon n k noVar vs.length vs.length (allocPreimage i vs : Synth F _) ∧
      SPost n k (fun l => l.length = vs.length) (allocPreimage i vs : Synth F _) := by
  induction vs generalizing i k with
  | nil => exact ⟨SCon.pure, SPost.pure rfl⟩
  | cons v vs ih =>
    constructor
    · refine SCon.le (SCon.bind (SCon.inNs _ (AllocatedBit.scon_alloc v)) (SLocal.inNs _ (AllocatedBit.slocal_alloc hn v))
        fun k1 a h1 ha => SCon.bind (ih (i + 1)).1 (slocal_allocPreimage hn _ _) fun _ _ _ _ => SCon.pure (N := 0) (A := 0)) ?_ ?_ <;>
      · rw [List.length_cons]; omega
    · refine SPost.bindKnown (P := fun _ => True) (SLocal.inNs _ (AllocatedBit.slocal_alloc hn v)) (fun _ _ _ _ => trivial)
        fun k1 a h1 ha _ => SPost.bindKnown (slocal_allocPreimage hn _ _) (ih (i + 1)).2 fun _ _ _ _ hl => SPost.pure ?_
      rw [List.length_cons, List.length_cons, hl]

theorem scon_sha256d (hn : 0 < n) {data : List Boolean} (h : Known n k data) (hl : data.length ≤ 640) :
    SCon n k noVar 81135 80580 (sha256d data : Synth F _) := by
  have hl' := (flipBytes_length_le data).trans hl
  refine SCon.le (SCon.bindPost (SCon.inNs _ (Sha256.scon_sha256 hn (known_flipBytes h)))
    (SLocal.inNs _ (Sha256.slocal_sha256 hn (known_flipBytes h))) (SPost.inNs _ (Sha256.spost_sha256 hn (known_flipBytes h)))
    (N' := 27045) (A' := 26860) fun k1 a h1 ha hq => ?_) ?_ ?_
  · refine SCon.le (SCon.bind (SCon.inNs _ (Sha256.scon_sha256 hn ha)) (SLocal.inNs _ (Sha256.slocal_sha256 hn ha))
      fun k2 b h2 hb => SCon.pure (N := 0) (A := 0)) ?_ ?_ <;> omega
  · omega
  · omega

theorem spost_sha256d (hn : 0 < n) {data : List Boolean} (h : Known n k data) :
    SPost n k (fun l => l.length ≤ 256) (sha256d data : Synth F _) :=
  SPost.bindKnown (P := fun _ => True) (SLocal.inNs _ (Sha256.slocal_sha256 hn (known_flipBytes h))) (fun _ _ _ _ => trivial)
    fun _ _ _ ha _ => SPost.bindKnown (SLocal.inNs _ (Sha256.slocal_sha256 hn ha)) (SPost.inNs _ (Sha256.spost_sha256 hn ha))
      fun _ b _ _ hb => SPost.pure ((flipBytes_length_le b).trans hb)

theorem scon_synthesize (c : MyCircuit) :
    SCon 1 0 noVar (81775 + (256 + CAPACITY F - 1) / CAPACITY F) 81220 (c.synthesize : Synth F _) := by
  unfold MyCircuit.synthesize
  dsimp only
  split
  · rename_i hb
    refine SCon.le (SCon.bindPost (con_allocPreimage one_pos 0 c.bitValues).1 (slocal_allocPreimage one_pos _ _)
      (con_allocPreimage one_pos 0 c.bitValues).2 fun k1 bits h1 hk hl => SCon.bindPost
        (SCon.inNs _ (scon_sha256d one_pos hk (by omega))) (SLocal.inNs _ (slocal_sha256d one_pos hk))
        (SPost.inNs _ (spost_sha256d one_pos hk)) fun k2 hash h2 hh hlh =>
          SCon.le (N' := (256 + CAPACITY F - 1) / CAPACITY F) (SCon.inNs _ (scon_packIntoInputs hash))
            (Nat.div_le_div_right (by omega)) le_rfl) ?_ ?_ <;> omega
  · exact SCon.panic

end Bellman.Preimage

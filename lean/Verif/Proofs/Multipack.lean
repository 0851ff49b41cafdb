import Verif.Proofs.Num
import Verif.Proofs.Trace
import Verif.Gadgets.Multipack

/-!
# Lemmas about multipack.rs
-/

set_option linter.unusedSectionVars false

namespace Bellman

open PrimeField

variable {F : Type} [PrimeField F] {ρ : Var → F}

theorem capacity_pos : 0 < CAPACITY F := by
  have h1 : p F < 2 ^ NUM_BITS F := p_lt_two_pow
  have h2 := two_lt_p (F := F)
  have h3 := capacity_lt (F := F)
  by_contra h
  have : NUM_BITS F = 1 := by omega
  rw [this] at h1
  omega

theorem eval_packNum (h1 : ρ .one = 1) {bs : List Boolean} {xs : List Bool} (h : List.Forall₂ (Boolean.Bit ρ) bs xs)
    (n : Num F) (c : F) : (packNum n c bs).lcomb.eval ρ = n.lcomb.eval ρ + c * (bitsVal xs : F) := by
  induction h generalizing n c with
  | nil => simp [packNum, bitsVal]
  | @cons b x bs xs hb h ih =>
    rw [packNum, ih]
    simp only [Num.addBoolWithCoeff, LC.eval_addLC, Boolean.eval_lc h1 hb, bitsVal]
    cases x <;> simp <;> ring

theorem value_packNum {bs : List Boolean} {xs : List Bool} (h : List.Forall₂ (Boolean.Has ρ) bs xs) (n : Num F) (c v : F)
    (hn : n.value = some v) : (packNum n c bs).value = some (v + c * (bitsVal xs : F)) := by
  induction h generalizing n c v with
  | nil => simp [packNum, bitsVal, hn]
  | @cons b x bs xs hb h ih =>
    rw [packNum]
    rw [ih _ _ (if x then v + c else v)]
    · simp only [bitsVal]
      cases x <;> simp <;> ring
    · simp only [Num.addBoolWithCoeff, hn, hb.1]

theorem multipackLoop_eq (cur c : F) (xs : List Bool) : multipackLoop cur c xs = cur + c * (bitsVal xs : F) := by
  induction xs generalizing cur c with
  | nil => simp [multipackLoop, bitsVal]
  | cons x xs ih =>
    rw [multipackLoop, ih, bitsVal]
    cases x <;> simp <;> ring

theorem computeMultipacking_eq (xs : List Bool) :
    computeMultipacking F xs =
      some ((chunksAux (CAPACITY F) xs.length xs).map fun c => (bitsVal c : F)) := by
  unfold computeMultipacking chunks?
  rw [if_neg (by have := capacity_pos (F := F); omega)]
  simp [multipackLoop_eq]

theorem chunksAux_forall₂ {α β : Type} {R : α → β → Prop} (n : ℕ) (fuel : ℕ) {l : List α} {l' : List β}
    (h : List.Forall₂ R l l') : List.Forall₂ (List.Forall₂ R) (chunksAux n fuel l) (chunksAux n fuel l') := by
  induction fuel generalizing l l' with
  | zero => exact .nil
  | succ f ih =>
    cases h with
    | nil => exact .nil
    | cons ha h =>
      simp only [chunksAux]
      exact .cons (List.forall₂_take n (.cons ha h)) (ih (List.forall₂_drop n (.cons ha h)))

theorem exec_packChunks (h1 : ρ .one = 1) (i : ℕ) {cs : List (List Boolean)} {xs : List (List Bool)}
    (h : List.Forall₂ (List.Forall₂ (Boolean.Bit ρ)) cs xs) {t}
    (he : Exec (packChunks (F := F) i cs).run t (some (.ok ()))) (hs : Sat ρ t) :
    (inputsOf t).map ρ = xs.map fun c => (bitsVal c : F) := by
  induction h generalizing i t with
  | nil =>
    obtain ⟨rfl, _⟩ := Synth.exec_pure_inv he
    rfl
  | @cons c x cs xs hc h ih =>
    rw [packChunks] at he
    obtain ⟨t1, t2, inp, rfl, he1, he3⟩ := Synth.exec_bind_inv he
    obtain ⟨t2, t3, u, rfl, he2, he4⟩ := Synth.exec_bind_inv he3
    have e1 := Synth.exec_allocInput_inv he1
    have e2 := Synth.exec_enforce_inv he2
    subst e1 e2
    simp only [Sat_append] at hs
    obtain ⟨_, hc2, hs⟩ := hs
    simp only [inputsOf_allocInput, inputsOf_enforce, List.singleton_append, List.map_cons]
    rw [ih _ he4 hs]
    congr 1
    have := hc2 _ _ _ _ (List.mem_singleton_self _)
    change (LC.addScaled LC.zero _).eval ρ * (LC.addVar LC.zero _).eval ρ = (LC.addVar LC.zero _).eval ρ at this
    have e3 := LC.eval_addScaled ρ LC.zero (1, (packNum Num.zero 1 c).lcomb)
    have e4 := LC.eval_addVar ρ (LC.zero : LC F) Var.one
    have e5 := LC.eval_addVar ρ (LC.zero : LC F) inp.1
    have e6 := eval_packNum h1 hc Num.zero 1
    change (LC.addScaled LC.zero _).eval ρ = _ at e3
    change (LC.addVar LC.zero _).eval ρ = _ at e4
    change (LC.addVar LC.zero _).eval ρ = _ at e5
    rw [e3, e4, e5, e6] at this
    simpa [h1, Num.zero] using this.symm

theorem wpC_packChunks (h1 : ρ .one = 1) (i : ℕ) {cs : List (List Boolean)} {xs : List (List Bool)}
    (h : List.Forall₂ (List.Forall₂ (Boolean.Has ρ)) cs xs) :
    Synth.wpC ρ (packChunks (F := F) i cs) fun _ => True := by
  induction h generalizing i with
  | nil => trivial
  | @cons c x cs xs hc h ih =>
    have hv := value_packNum hc (Num.zero : Num F) 1 0 rfl
    have he := eval_packNum h1 (hc.imp fun _ _ h => h.2) (Num.zero : Num F) 1
    rw [packChunks]
    simp only [Synth.wpC_bind, Synth.wpC_allocInput, Synth.wpC_enforce, hv, Synth.optGet_some, Num.lc, LC.eval_addScaled,
      LC.eval_addVar, LC.eval_zero, he, h1]
    refine ⟨_, rfl, fun y hy => ⟨?_, ih _⟩⟩
    rw [hy]; simp [Num.zero]

theorem exec_packIntoInputs (h1 : ρ .one = 1) {bits : List Boolean} {xs : List Bool}
    (h : List.Forall₂ (Boolean.Bit ρ) bits xs) {t}
    (he : Exec (packIntoInputs (F := F) bits).run t (some (.ok ()))) (hs : Sat ρ t) :
    computeMultipacking F xs = some ((inputsOf t).map ρ) := by
  unfold packIntoInputs chunks? at he
  rw [if_neg (by have := capacity_pos (F := F); omega)] at he
  rw [computeMultipacking_eq, exec_packChunks h1 0 (chunksAux_forall₂ _ _ h) he hs, h.length_eq]

theorem wpC_packIntoInputs (h1 : ρ .one = 1) {bits : List Boolean} {xs : List Bool}
    (h : List.Forall₂ (Boolean.Has ρ) bits xs) : Synth.wpC ρ (packIntoInputs (F := F) bits) fun _ => True := by
  unfold packIntoInputs chunks?
  rw [if_neg (by have := capacity_pos (F := F); omega)]
  exact wpC_packChunks h1 0 (chunksAux_forall₂ _ _ h)

theorem chunksAux_shape {α β : Type} (n fuel : ℕ) (l : List α) (l' : List β) (h : l.length = l'.length) :
    (chunksAux n fuel l).map List.length = (chunksAux n fuel l').map List.length := by
  have h2 : List.Forall₂ (fun (_ : α) (_ : β) => True) l l' := by
    rw [List.forall₂_iff_get]; exact ⟨h, fun _ _ _ => trivial⟩
  have := chunksAux_forall₂ n fuel h2
  generalize chunksAux n fuel l = A at *
  generalize chunksAux n fuel l' = B at *
  induction this with
  | nil => rfl
  | cons h _ ih => simp [ih, h.length_eq]

theorem computeMultipacking_inj {xs ys : List Bool} (hl : xs.length = ys.length)
    (h : computeMultipacking F xs = computeMultipacking F ys) : xs = ys := by
  rw [computeMultipacking_eq, computeMultipacking_eq, hl, Option.some.injEq] at h
  have hc := capacity_pos (F := F)
  have hsh := chunksAux_shape (CAPACITY F) ys.length xs ys hl
  have key : ∀ (A B : List (List Bool)), (∀ c ∈ A, c.length ≤ CAPACITY F) → A.map List.length = B.map List.length →
      (A.map fun c => (bitsVal c : F)) = (B.map fun c => (bitsVal c : F)) → A = B := by
    intro A
    induction A with
    | nil => intro B _ h1 _; cases B with
      | nil => rfl
      | cons => simp at h1
    | cons a A ih =>
      intro B hA h1 h2
      cases B with
      | nil => simp at h1
      | cons b B =>
        simp only [List.map_cons, List.cons.injEq] at h1 h2
        rw [ih B (fun c hc => hA c (by simp [hc])) h1.2 h2.2]
        congr 1
        refine bitsVal_inj h1.1 (cast_inj_of_lt (F := F) ?_ ?_ h2.1)
        · refine lt_trans (lt_of_lt_of_le (bitsVal_lt a) ?_) two_pow_capacity_lt
          exact Nat.pow_le_pow_right (by norm_num) (hA a (by simp))
        · refine lt_trans (lt_of_lt_of_le (bitsVal_lt b) ?_) two_pow_capacity_lt
          rw [← h1.1]
          exact Nat.pow_le_pow_right (by norm_num) (hA a (by simp))
  have := key _ _ (fun c hc => chunksAux_length_le _ _ _ _ hc) hsh h
  rw [← chunksAux_flatten (CAPACITY F) hc ys.length xs (by omega), this, chunksAux_flatten _ hc _ _ (le_refl _)]

end Bellman

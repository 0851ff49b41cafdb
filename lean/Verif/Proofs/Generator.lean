import Verif.Groth16.Generator
import Verif.Proofs.Assembly
import Verif.Proofs.Chunks
import Verif.Proofs.Quotient
import Verif.Spec.Qap

/-!
# What `generate_parameters` computes
-/

namespace Bellman

open PrimeField Finset EvaluationDomain Polynomial

set_option linter.unusedSectionVars false

/-! ## Tasks that walk a list -/

theorem run_mapIdx {X σ : Type} (L : List X) (g : ℕ → X → σ → Option σ) (P : ℕ → σ → Prop) (s : σ) (h0 : P 0 s)
    (hs : ∀ k x, L[k]? = some x → ∀ s, P k s → ∃ s', g k x s = some s' ∧ P (k + 1) s') :
    ∃ s', Task.run ⟨s, L.mapIdx g⟩ = some s' ∧ P L.length s' := by
  induction L generalizing g P s with
  | nil => exact ⟨s, rfl, h0⟩
  | cons x xs ih =>
    obtain ⟨s1, e1, p1⟩ := hs 0 x rfl s h0
    obtain ⟨s2, e2, p2⟩ := ih (fun i => g (i + 1)) (fun k => P (k + 1)) s1 p1 fun k y hy s hp => hs (k + 1) y (by simpa using hy) s hp
    refine ⟨s2, ?_, p2⟩
    rw [List.mapIdx_cons, Task.run_cons, e1]
    exact e2

section

variable {X G : Type} [Zero G]

theorem fill_set (L : List X) (f : X → G) (k : ℕ) (x : X) (h : L[k]? = some x) :
    (L.mapIdx fun i x => if i < k then f x else 0).set k (f x) = L.mapIdx fun i x => if i < k + 1 then f x else 0 := by
  have hk : k < L.length := by
    by_contra hc
    rw [List.getElem?_eq_none (by omega)] at h
    cases h
  apply List.ext_getElem?
  intro i
  simp only [List.getElem?_set, List.length_mapIdx, List.getElem?_mapIdx]
  by_cases hi : k = i
  · subst hi
    have hx : L[k] = x := by rw [List.getElem?_eq_getElem hk] at h; exact Option.some.inj h
    simp [hk, hx]
  · simp only [hi, if_false]
    cases L[i]? with
    | none => rfl
    | some y =>
      have : (i < k) ↔ (i < k + 1) := by omega
      simp [this]

theorem fill_skip (L : List X) (f : X → G) (k : ℕ) (x : X) (h : L[k]? = some x) (hf : f x = 0) :
    (L.mapIdx fun i x => if i < k then f x else 0) = L.mapIdx fun i x => if i < k + 1 then f x else 0 := by
  have hk : k < L.length := by
    by_contra hc
    rw [List.getElem?_eq_none (by omega)] at h
    cases h
  rw [← fill_set L f k x h, hf]
  apply List.ext_getElem?
  intro i
  simp only [List.getElem?_set, List.length_mapIdx, List.getElem?_mapIdx]
  by_cases hi : k = i
  · subst hi; simp [hk]
  · simp [hi]

theorem fill_zero (L : List X) (f : X → G) : (L.mapIdx fun i x => if i < 0 then f x else 0) = List.replicate L.length 0 := by
  apply List.ext_getElem?
  intro i
  simp only [List.getElem?_mapIdx, List.getElem?_replicate]
  by_cases h : i < L.length
  · simp [h]
  · simp [h]

theorem fill_full (L : List X) (f : X → G) : (L.mapIdx fun i x => if i < L.length then f x else 0) = L.map f := by
  apply List.ext_getElem?
  intro i
  simp only [List.getElem?_mapIdx, List.getElem?_map]
  by_cases h : i < L.length
  · simp [h]
  · simp [h]

end

variable {F : Type} [PrimeField F]

/-! ## The QAP evaluation -/

/-- The value `eval_at_tau` computes. -/
def sumAt (pot : List F) (p : List (F × ℕ)) : F := (p.map fun x => pot.getD x.2 0 * x.1).sum

theorem evalAtTau_eq (pot : List F) (p : List (F × ℕ)) (h : ∀ x ∈ p, x.2 < pot.length) :
    evalAtTau pot p = some (sumAt pot p) := by
  have key : ∀ (p : List (F × ℕ)) (acc : F), (∀ x ∈ p, x.2 < pot.length) →
      p.foldlM (fun acc x => do
        let n ← pot[x.2]?
        pure (acc + n * x.1)) acc = some (acc + sumAt pot p) := by
    intro p
    induction p with
    | nil => intro acc _; simp [sumAt]
    | cons x xs ih =>
      intro acc hx
      rw [List.foldlM_cons]
      have h0 := hx x (by simp)
      rw [List.getElem?_eq_getElem h0]
      simp only [Option.bind_eq_bind, Option.bind_some, Option.pure_def]
      have := ih (acc + pot[x.2] * x.1) fun y hy => hx y (by simp [hy])
      simp only [Option.bind_eq_bind, Option.pure_def] at this
      rw [this, Option.some.injEq]
      simp only [sumAt, List.map_cons, List.sum_cons, getD_eq_get _ _ h0]
      ring
  have := key p 0 h
  rw [zero_add] at this
  exact this

section Groups

variable {G1 G2 : Type} [AddCommGroup G1] [AddCommGroup G2] [Module F G1] [Module F G2]

/-- The exponent stored in `ext` for one variable. -/
def extVal (e : EvalIn F G1 G2) (x : List (F × ℕ) × List (F × ℕ) × List (F × ℕ)) : F :=
  (sumAt e.powersOfTau x.1 * e.beta + sumAt e.powersOfTau x.2.1 * e.alpha + sumAt e.powersOfTau x.2.2) * e.inv

/-- All entries refer to existing powers. -/
def InPot (pot : List F) (l : List (List (F × ℕ))) : Prop := ∀ p ∈ l, ∀ x ∈ p, x.2 < pot.length

theorem evalTask_run (e : EvalIn F G1 G2) (c : EvalChunk F G1 G2) (hb : c.bt.length = c.at_.length)
    (hc : c.ct.length = c.at_.length) (h1 : c.out.a.length = c.at_.length) (h2 : c.out.bG1.length = c.at_.length)
    (h3 : c.out.bG2.length = c.at_.length) (h4 : c.out.ext.length = c.at_.length) (ha : InPot e.powersOfTau c.at_)
    (hbp : InPot e.powersOfTau c.bt) (hcp : InPot e.powersOfTau c.ct) :
    (evalTask e c).run = some
      { a := (c.at_.zip (c.bt.zip c.ct)).map fun x => sumAt e.powersOfTau x.1 • e.g1
        bG1 := (c.at_.zip (c.bt.zip c.ct)).map fun x => sumAt e.powersOfTau x.2.1 • e.g1
        bG2 := (c.at_.zip (c.bt.zip c.ct)).map fun x => sumAt e.powersOfTau x.2.1 • e.g2
        ext := (c.at_.zip (c.bt.zip c.ct)).map fun x => extVal e x • e.g1 } := by
  set L := c.at_.zip (c.bt.zip c.ct) with hL
  have hlen : L.length = c.at_.length := by simp [hL, hb, hc]
  have hmem : ∀ (k : ℕ) (x : List (F × ℕ) × List (F × ℕ) × List (F × ℕ)), L[k]? = some x → x.1 ∈ c.at_ ∧ x.2.1 ∈ c.bt ∧ x.2.2 ∈ c.ct := by
    intro k x hx
    have hm := List.mem_of_getElem? hx
    rw [hL] at hm
    have m1 := List.of_mem_zip (a := x.1) (b := x.2) hm
    have m2 := List.of_mem_zip (a := x.2.1) (b := x.2.2) m1.2
    exact ⟨m1.1, m2.1, m2.2⟩
  unfold evalTask
  rw [← hL, h1, h2, h3, h4, ← hlen]
  obtain ⟨s, es, hs⟩ := run_mapIdx L (fun j x o => evalBody e x.1 x.2.1 x.2.2 j o)
    (fun k o => o =
      { a := L.mapIdx fun i x => if i < k then sumAt e.powersOfTau x.1 • e.g1 else 0
        bG1 := L.mapIdx fun i x => if i < k then sumAt e.powersOfTau x.2.1 • e.g1 else 0
        bG2 := L.mapIdx fun i x => if i < k then sumAt e.powersOfTau x.2.1 • e.g2 else 0
        ext := L.mapIdx fun i x => if i < k then extVal e x • e.g1 else 0 })
    ⟨List.replicate L.length 0, List.replicate L.length 0, List.replicate L.length 0, List.replicate L.length 0⟩
    (by simp only [fill_zero]) (by
      rintro k x hx _ rfl
      refine ⟨_, ?_, rfl⟩
      obtain ⟨m1, m2, m3⟩ := hmem k x hx
      unfold evalBody
      rw [evalAtTau_eq _ _ (ha _ m1), evalAtTau_eq _ _ (hbp _ m2), evalAtTau_eq _ _ (hcp _ m3)]
      simp only [Option.bind_eq_bind, Option.bind_some, Option.pure_def, Option.some.injEq]
      have s1 := fill_set L (fun x => sumAt e.powersOfTau x.1 • e.g1) k x hx
      have s2 := fill_set L (fun x => sumAt e.powersOfTau x.2.1 • e.g1) k x hx
      have s3 := fill_set L (fun x => sumAt e.powersOfTau x.2.1 • e.g2) k x hx
      have s4 := fill_set L (fun x => extVal e x • e.g1) k x hx
      have z1 := fill_skip L (fun x => sumAt e.powersOfTau x.1 • e.g1) k x hx
      have z2 := fill_skip L (fun x => sumAt e.powersOfTau x.2.1 • e.g1) k x hx
      have z3 := fill_skip L (fun x => sumAt e.powersOfTau x.2.1 • e.g2) k x hx
      by_cases ca : sumAt e.powersOfTau x.1 = 0 <;> by_cases cb : sumAt e.powersOfTau x.2.1 = 0
      · have s4' := s4
        simp only [extVal, ca, cb] at s4'
        simp only [ca, cb, ne_eq, not_true_eq_false, if_false, EvalOut.mk.injEq]
        exact ⟨z1 (by rw [ca, zero_smul]), z2 (by rw [cb, zero_smul]), z3 (by rw [cb, zero_smul]), s4'⟩
      · have s4' := s4
        simp only [extVal, ca] at s4'
        simp only [ca, cb, ne_eq, not_true_eq_false, not_false_eq_true, if_true, if_false, EvalOut.mk.injEq]
        exact ⟨z1 (by rw [ca, zero_smul]), s2, s3, s4'⟩
      · have s4' := s4
        simp only [extVal, cb] at s4'
        simp only [ca, cb, ne_eq, not_true_eq_false, not_false_eq_true, if_true, if_false, EvalOut.mk.injEq]
        exact ⟨s1, z2 (by rw [cb, zero_smul]), z3 (by rw [cb, zero_smul]), s4'⟩
      · simp only [ca, cb, ne_eq, not_false_eq_true, if_true, EvalOut.mk.injEq]
        exact ⟨s1, s2, s3, s4⟩)
  refine es.trans ?_
  rw [hs]
  simp only [fill_full]

theorem chunks?_pos {α : Type} {n : ℕ} (hn : 0 < n) (l : List α) : chunks? n l = some (chunksAux n l.length l) := by
  unfold chunks?
  rw [if_neg (by omega)]

theorem zip_map_prod {A B X : Type} (l : List X) (f : X → A) (g : X → B) : (l.map f).zip (l.map g) = l.map fun x => (f x, g x) := by
  induction l with
  | nil => rfl
  | cons x xs ih => simp [ih]

theorem mem_chunksAux {α : Type} (n fuel : ℕ) (l c : List α) (h : c ∈ chunksAux n fuel l) : ∀ x ∈ c, x ∈ l := by
  induction fuel generalizing l with
  | zero => simp [chunksAux] at h
  | succ f ih =>
    cases l with
    | nil => simp [chunksAux] at h
    | cons y ys =>
      simp only [chunksAux, List.mem_cons] at h
      intro x hx
      rcases h with rfl | h
      · exact List.mem_of_mem_take hx
      · exact List.mem_of_mem_drop (ih _ h x hx)

theorem evalQap_eq (w : Worker) (e : EvalIn F G1 G2) (at_ bt ct : List (List (F × ℕ))) (out : EvalOut G1 G2)
    (hb : bt.length = at_.length) (hc : ct.length = at_.length) (h1 : out.a.length = at_.length)
    (h2 : out.bG1.length = at_.length) (h3 : out.bG2.length = at_.length) (h4 : out.ext.length = at_.length)
    (ha : InPot e.powersOfTau at_) (hbp : InPot e.powersOfTau bt) (hcp : InPot e.powersOfTau ct)
    (hpos : w.multicore = true ∨ 0 < at_.length) :
    evalQap w e at_ bt ct out = some
      { a := (at_.zip (bt.zip ct)).map fun x => sumAt e.powersOfTau x.1 • e.g1
        bG1 := (at_.zip (bt.zip ct)).map fun x => sumAt e.powersOfTau x.2.1 • e.g1
        bG2 := (at_.zip (bt.zip ct)).map fun x => sumAt e.powersOfTau x.2.1 • e.g2
        ext := (at_.zip (bt.zip ct)).map fun x => extVal e x • e.g1 } := by
  have hn : 0 < w.chunkSize out.a.length := (w.chunkSize_pos_iff _).2 (by rwa [h1])
  unfold evalQap
  simp only [guard, h1, hb, hc, h2, h3, h4, if_true, Option.bind_eq_bind, Option.pure_def, Option.bind_some]
  rw [h1] at hn
  set n := w.chunkSize at_.length with hnn
  simp only [chunks?_pos hn, Option.bind_some, h1, hb, hc, h2, h3, h4]
  set L := at_.length
  rw [chunksAux_zip n L bt ct (by rw [hb, hc])]
  have hz1 : (bt.zip ct).length = L := by simp [hb, hc]
  have hz2 : (at_.zip (bt.zip ct)).length = L := by rw [List.length_zip, hz1]; simp [L]
  have hz3 : (out.ext.zip (at_.zip (bt.zip ct))).length = L := by rw [List.length_zip, hz2, h4]; simp
  have hz4 : (out.bG2.zip (out.ext.zip (at_.zip (bt.zip ct)))).length = L := by rw [List.length_zip, hz3, h3]; simp
  have hz5 : (out.bG1.zip (out.bG2.zip (out.ext.zip (at_.zip (bt.zip ct))))).length = L := by rw [List.length_zip, hz4, h2]; simp
  have hz6 : (out.a.zip (out.bG1.zip (out.bG2.zip (out.ext.zip (at_.zip (bt.zip ct)))))).length = L := by
    rw [List.length_zip, hz5, h1]; simp
  rw [List.zip_map_right, chunksAux_zip n L at_ (bt.zip ct) hz1.symm, List.map_map]
  rw [List.zip_map_right, chunksAux_zip n L out.ext _ (by rw [h4, hz2]), List.map_map]
  rw [List.zip_map_right, chunksAux_zip n L out.bG2 _ (by rw [h3, hz3]), List.map_map]
  rw [List.zip_map_right, chunksAux_zip n L out.bG1 _ (by rw [h2, hz4]), List.map_map]
  rw [List.zip_map_right, chunksAux_zip n L out.a _ (by rw [h1, hz5]), List.map_map]
  rw [List.map_map, w.runTasks_eq, List.mapM_map]
  set W := out.a.zip (out.bG1.zip (out.bG2.zip (out.ext.zip (at_.zip (bt.zip ct))))) with hW
  let pr : G1 × G1 × G2 × G1 × List (F × ℕ) × List (F × ℕ) × List (F × ℕ) → List (F × ℕ) × List (F × ℕ) × List (F × ℕ) :=
    fun z => z.2.2.2.2
  have hpr : W.map pr = at_.zip (bt.zip ct) := by
    have e1 : W.map Prod.snd = _ := List.map_snd_zip (by omega)
    have e2 : (out.bG1.zip (out.bG2.zip (out.ext.zip (at_.zip (bt.zip ct))))).map Prod.snd = _ := List.map_snd_zip (by omega)
    have e3 : (out.bG2.zip (out.ext.zip (at_.zip (bt.zip ct)))).map Prod.snd = _ := List.map_snd_zip (by omega)
    have e4 : (out.ext.zip (at_.zip (bt.zip ct))).map Prod.snd = _ := List.map_snd_zip (by omega)
    rw [← e4, ← e3, ← e2, ← e1]
    simp only [List.map_map]
    rfl
  rw [mapM_some _ (fun c : List (G1 × G1 × G2 × G1 × List (F × ℕ) × List (F × ℕ) × List (F × ℕ)) =>
      ({ a := c.map fun z => sumAt e.powersOfTau (pr z).1 • e.g1
         bG1 := c.map fun z => sumAt e.powersOfTau (pr z).2.1 • e.g1
         bG2 := c.map fun z => sumAt e.powersOfTau (pr z).2.1 • e.g2
         ext := c.map fun z => extVal e (pr z) • e.g1 } : EvalOut G1 G2))]
  · simp only [Option.bind_some, Option.some.injEq, List.map_map, EvalOut.mk.injEq]
    have fl := chunksAux_flatten n hn L W (by rw [hz6])
    have fin : ∀ {G : Type} (f : List (F × ℕ) × List (F × ℕ) × List (F × ℕ) → G),
        ((chunksAux n L W).map fun c => c.map fun z => f (pr z)).flatten = (at_.zip (bt.zip ct)).map f := by
      intro G f
      rw [← hpr, List.map_map]
      conv_rhs => rw [← fl]
      rw [List.map_flatten]
      rfl
    exact ⟨fin fun x => sumAt e.powersOfTau x.1 • e.g1, fin fun x => sumAt e.powersOfTau x.2.1 • e.g1,
      fin fun x => sumAt e.powersOfTau x.2.1 • e.g2, fin fun x => extVal e x • e.g1⟩
  · intro c hcm
    have hmem := mem_chunksAux n L W c hcm
    simp only [Function.comp, Prod.map, id, List.map_map]
    have hp : ∀ z ∈ c, pr z ∈ at_.zip (bt.zip ct) := fun z hz => by
      rw [← hpr]; exact List.mem_map_of_mem (hmem z hz)
    have hp' : ∀ z ∈ c, (pr z).1 ∈ at_ ∧ (pr z).2.1 ∈ bt ∧ (pr z).2.2 ∈ ct := fun z hz => by
      have m1 := List.of_mem_zip (a := (pr z).1) (b := (pr z).2) (hp z hz)
      have m2 := List.of_mem_zip (a := (pr z).2.1) (b := (pr z).2.2) m1.2
      exact ⟨m1.1, m2.1, m2.2⟩
    refine (evalTask_run e _ ?_ ?_ ?_ ?_ ?_ ?_ ?_ ?_ ?_).trans ?_
    · simp
    · simp
    · simp
    · simp
    · simp
    · simp
    · intro p hpm
      obtain ⟨z, hz, rfl⟩ := List.mem_map.1 hpm
      exact ha _ (hp' z hz).1
    · intro p hpm
      obtain ⟨z, hz, rfl⟩ := List.mem_map.1 hpm
      exact hbp _ (hp' z hz).2.1
    · intro p hpm
      obtain ⟨z, hz, rfl⟩ := List.mem_map.1 hpm
      exact hcp _ (hp' z hz).2.2
    · simp only [List.map_map, zip_map_prod, Function.comp_def]
      rfl

/-! ## The H query -/

theorem hTask_run (g1 : G1) (coeff : F) (h : List G1) (p : List F) (hl : h.length ≤ p.length) :
    (hTask g1 coeff (h, p)).run = some ((p.take h.length).map fun x => (x * coeff) • g1, (p.take h.length).map fun x => (x * coeff) • g1) := by
  unfold hTask
  simp only
  have hrun : ∀ (s : List G1 × List G1) (xs ys : List (List G1 × List G1 → Option (List G1 × List G1))),
      Task.run ⟨s, xs ++ ys⟩ = (Task.run ⟨s, xs⟩).bind fun s' => Task.run ⟨s', ys⟩ := by
    intro s xs ys
    unfold Task.run
    simp [List.foldlM_append]
  rw [hrun, Task.run_range]
  obtain ⟨s, es, hs⟩ := foldlM_range_inv (n := h.length)
    (f := fun (s : List G1 × List G1) j => (do
      guard (h.length ≤ p.length)
      let q ← p[j]?
      pure (s.1, s.2 ++ [(q * coeff) • g1]) : Option (List G1 × List G1)))
    (fun k s => s = (h, (p.take k).map fun x => (x * coeff) • g1)) (s := (h, [])) (by simp) (by
      rintro k hk _ rfl
      have hkp : k < p.length := by omega
      refine ⟨_, ?_, rfl⟩
      simp only [guard, if_pos hl, List.getElem?_eq_getElem hkp, Option.bind_eq_bind, Option.pure_def, Option.bind_some]
      rw [List.take_succ_eq_append_getElem hkp, List.map_append]
      rfl)
  rw [es, hs]
  rfl

theorem hQuery_eq (w : Worker) (g1 : G1) (coeff : F) (h : List G1) (powers : List F) (hl : h.length ≤ powers.length)
    (hpos : w.multicore = true ∨ 0 < h.length) :
    hQuery w g1 coeff h powers = some ((powers.take h.length).map fun x => (x * coeff) • g1) := by
  have hn : 0 < w.chunkSize h.length := (w.chunkSize_pos_iff _).2 hpos
  unfold hQuery
  simp only [chunks?_pos hn, Option.bind_eq_bind, Option.bind_some]
  set n := w.chunkSize h.length
  set R := (powers.take h.length).map fun x => (x * coeff) • g1 with hR
  have hRl : R.length = h.length := by simp [hR, hl]
  rw [chunksAux_eq' n hn h.length h le_rfl, chunksAux_eq' n hn powers.length powers le_rfl]
  have hle : (h.length + (n - 1)) / n ≤ (powers.length + (n - 1)) / n := Nat.div_le_div_right (by omega)
  set a := (h.length + (n - 1)) / n with ha
  set b := (powers.length + (n - 1)) / n
  have hz : ((List.range a).map fun t => (h.drop (n * t)).take n).zip ((List.range b).map fun t => (powers.drop (n * t)).take n) =
      (List.range a).map fun t => ((h.drop (n * t)).take n, (powers.drop (n * t)).take n) := by
    apply List.ext_getElem?
    intro i
    simp only [List.getElem?_map]
    by_cases hi : i < a
    · have hb : i < b := by omega
      rw [List.getElem?_eq_getElem (by simp; omega)]
      simp [hi]
    · rw [List.getElem?_eq_none (by simp; omega), List.getElem?_eq_none (by simp; omega)]
      rfl
  rw [hz, w.runTasks_eq, List.map_map, List.mapM_map]
  rw [mapM_some _ (fun t => ((R.drop (n * t)).take n, (R.drop (n * t)).take n))]
  · simp only [Option.bind_some, Option.pure_def, Option.some.injEq, List.map_map, List.length_map, List.length_range,
      Function.comp_def]
    rw [List.drop_of_length_le (by simp), List.append_nil]
    have := chunksAux_flatten n hn R.length R le_rfl
    rw [chunksAux_eq' n hn R.length R le_rfl, hRl, ← ha] at this
    exact this
  · intro t _
    simp only [Function.comp]
    rw [hTask_run _ _ _ _ (by simp only [List.length_take, List.length_drop]; omega)]
    have : (((powers.drop (n * t)).take n).take ((h.drop (n * t)).take n).length).map (fun x => (x * coeff) • g1) =
        (R.drop (n * t)).take n := by
      rw [hR]
      simp only [List.length_take, List.length_drop, ← List.map_drop, ← List.map_take, List.drop_take, List.take_take]
      congr 2
      omega
    rw [this]

end Groups

end Bellman

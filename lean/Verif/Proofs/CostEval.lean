import Verif.Proofs.CostConst
import Verif.Proofs.CostNumbers
import Verif.Examples.Preimage

/-!
# The exact size of the hash circuits, for fields with `CAPACITY = 254`
-/

namespace Bellman.Cost

open PrimeField List

set_option linter.unusedSectionVars false
set_option maxRecDepth 100000

variable {F : Type} [PrimeField F] {α β : Type}

theorem forall₂_replicate {R : α → β → Prop} {l : List α} {x : β} (h : ∀ a ∈ l, R a x) : Forall₂ R l (replicate l.length x) := by
  induction l with
  | nil => exact .nil
  | cons a l ih => exact .cons (h a (mem_cons_self ..)) (ih fun b hb => h b (mem_cons_of_mem _ hb))

theorem of_forall₂_replicate {R : α → β → Prop} {l : List α} {x : β} {n : ℕ} (h : Forall₂ R l (replicate n x)) :
    l.length = n ∧ ∀ a ∈ l, R a x := by
  refine ⟨by rw [h.length_eq, length_replicate], ?_⟩
  induction l generalizing n with
  | nil => exact fun _ h => absurd h not_mem_nil
  | cons a l ih =>
    cases n with
    | zero => cases h
    | succ n =>
      cases h with
      | cons h1 h2 =>
        intro b hb
        rcases mem_cons.1 hb with rfl | hb
        · exact h1
        · exact ih h2 b hb

/-- Bits that are not constants. -/
def AllV (l : List Boolean) : Prop := ∀ b ∈ l, b.isConstant = false

theorem fits_var {b : Boolean} : AB.Fits b .var ↔ b.isConstant = false := by
  cases b with
  | is _ => exact ⟨fun _ => rfl, fun _ => trivial⟩
  | not _ => exact ⟨fun _ => rfl, fun _ => trivial⟩
  | constant _ => exact ⟨fun h => (show False from h).elim, fun h => by cases h⟩

theorem AllV.fits {l : List Boolean} (h : AllV l) : Forall₂ AB.Fits l (replicate l.length .var) :=
  forall₂_replicate fun b hb => fits_var.2 (h b hb)

/-- Eight words without constant bits. -/
abbrev V8 (l : List UInt32) : Prop := Forall₂ AW.Fits l (replicate 8 VW)

theorem allV_flatMap {l : List UInt32} (h : V8 l) :
    AllV (l.flatMap UInt32.intoBitsBe) ∧ (l.flatMap UInt32.intoBitsBe).length = 256 ∧
    AllV (l.flatMap UInt32.intoBits) ∧ (l.flatMap UInt32.intoBits).length = 256 := by
  obtain ⟨hl, hw⟩ := of_forall₂_replicate h
  have hv : ∀ u ∈ l, u.bits.length = 32 ∧ ∀ b ∈ u.bits, AB.Fits b .var := fun u hu => of_forall₂_replicate (show Forall₂ _ _ _ from hw u hu)
  refine ⟨?_, ?_, ?_, ?_⟩
  · intro b hb
    obtain ⟨u, hu, hbu⟩ := mem_flatMap.1 hb
    exact fits_var.1 ((hv u hu).2 b (mem_reverse.1 hbu))
  · rw [length_flatMap, map_congr_left (g := fun _ => 32) fun u hu => by rw [UInt32.intoBitsBe, length_reverse, (hv u hu).1], map_const',
      sum_replicate, hl]; rfl
  · intro b hb
    obtain ⟨u, hu, hbu⟩ := mem_flatMap.1 hb
    exact fits_var.1 ((hv u hu).2 b hbu)
  · rw [length_flatMap, map_congr_left (g := fun _ => 32) fun u hu => by rw [UInt32.intoBits, (hv u hu).1], map_const', sum_replicate, hl]; rfl

/-- Dividing a list into pieces. -/
theorem pieces (b : ℕ) (l : List α) (h : l.length = 512 * b) :
    ∃ bs : List (List α), bs.length = b ∧ (∀ c ∈ bs, c.length = 512) ∧ l = bs.flatten := by
  induction b generalizing l with
  | zero => exact ⟨[], rfl, fun _ h => absurd h not_mem_nil, length_eq_zero_iff.1 (by omega)⟩
  | succ b ih =>
    obtain ⟨bs, h1, h2, h3⟩ := ih (l.drop 512) (by rw [length_drop]; omega)
    refine ⟨l.take 512 :: bs, by rw [length_cons, h1], ?_, by rw [flatten_cons, ← h3, take_append_drop]⟩
    intro c hc
    rcases mem_cons.1 hc with rfl | hc
    · rw [length_take]; omega
    · exact h2 c hc

theorem chunks_pieces {bs : List (List α)} (h : ∀ c ∈ bs, c.length = 512) : chunks? 512 bs.flatten = some bs := by
  rw [chunks?, if_neg (by norm_num), chunksAux_blocks (by norm_num) bs h _ le_rfl]

namespace Sha256

theorem fits_iv : Forall₂ AW.Fits Bellman.Sha256.iv aiv := by
  unfold Bellman.Sha256.iv aiv
  rw [forall₂_map_left_iff, forall₂_map_right_iff]
  exact forall₂_same.2 fun _ _ => rfl

theorem exactly_first (hc : CAPACITY F = 254) {b : List Boolean} (hb : AllV b) (hl : b.length = 512) :
    Exactly (F := F) (Bellman.Sha256.compression b Bellman.Sha256.iv) 25814 26 V8 :=
  (ss_compression hc (hl ▸ hb.fits) fits_iv).eval eval_first

theorem exactly_next (hc : CAPACITY F = 254) {b : List Boolean} (hb : AllV b) (hl : b.length = 512) {cur : List UInt32} (h : V8 cur) :
    Exactly (F := F) (Bellman.Sha256.compression b cur) 26166 26 V8 :=
  (ss_compression hc (hl ▸ hb.fits) h).eval eval_next

theorem exactly_pad (hc : CAPACITY F = 254) {b : List Boolean} (hb : AllB b) (hl : b.length = 512) {cur : List UInt32} (h : V8 cur) :
    Exactly (F := F) (Bellman.Sha256.compression b cur) 19014 20 V8 :=
  (ss_compression hc (hl ▸ hb.fits) h).eval eval_pad

theorem exactly_rest (hc : CAPACITY F = 254) (i : ℕ) {bs : List (List Boolean)} (hb : ∀ c ∈ bs, AllV c ∧ c.length = 512) {z : List Boolean}
    (hz : AllB z) (hl : z.length = 512) {cur : List UInt32} (h : V8 cur) :
    Exactly (F := F) (Bellman.Sha256.blockLoop i cur (bs ++ [z])) (bs.length * 26166 + 19014) (bs.length * 26 + 20) V8 := by
  induction bs generalizing i cur with
  | nil =>
    have := (Exactly.inNs s!"block {i}" (exactly_pad hc hz hl h)).bind fun cur h =>
      (Exactly.pure (F := F) (Q := V8) h : Exactly (Bellman.Sha256.blockLoop (i + 1) cur []) 0 0 V8)
    rw [length_nil, Nat.zero_mul, Nat.zero_add]
    exact this
  | cons b bs ih =>
    have := (Exactly.inNs s!"block {i}" (exactly_next hc (hb b (mem_cons_self ..)).1 (hb b (mem_cons_self ..)).2 h)).bind fun cur h =>
      ih (i + 1) (fun c hc => hb c (mem_cons_of_mem _ hc)) h
    rw [length_cons, show (bs.length + 1) * 26166 + 19014 = 26166 + (bs.length * 26166 + 19014) by ring,
      show (bs.length + 1) * 26 + 20 = 26 + (bs.length * 26 + 20) by ring]
    exact this

/-- Hashing whole blocks. -/
theorem exactly_sha256 (hc : CAPACITY F = 254) {input : List Boolean} (hi : AllV input) {b : ℕ} (hl : input.length = 512 * (b + 1)) :
    Exactly (F := F) (Bellman.Sha256.sha256 input) (44828 + b * 26166) (46 + b * 26) fun r => AllV r ∧ r.length = 256 := by
  obtain ⟨bs, h1, h2, h3⟩ := pieces _ _ hl
  obtain ⟨z, hz, hzc, hzl⟩ := Sha256.pad_eq input
  have hzl' : z.length = 512 := by rw [hzl]; omega
  have hbs : ∀ c ∈ bs, AllV c ∧ c.length = 512 := fun c hc =>
    ⟨fun x hx => hi x (by rw [h3]; exact mem_flatten.2 ⟨c, hc, hx⟩), h2 c hc⟩
  unfold Bellman.Sha256.sha256
  split
  · dsimp only
    split
    · have hch : chunks? 512 (Bellman.Sha256.pad input) = some (bs ++ [z]) := by
        rw [hz, h3, show bs.flatten ++ z = (bs ++ [z]).flatten by simp]
        refine chunks_pieces fun c hc => ?_
        rcases mem_append.1 hc with hc | hc
        · exact h2 c hc
        · rw [mem_singleton.1 hc, hzl']
      rw [hch]
      dsimp only
      have : Exactly (F := F) (Bellman.Sha256.blockLoop 0 Bellman.Sha256.iv (bs ++ [z])) (44828 + b * 26166) (46 + b * 26) V8 := by
        cases bs with
        | nil => cases h1
        | cons c bs =>
          have h1' : bs.length = b := by simpa using h1
          subst h1'
          have := (Exactly.inNs s!"block {0}" (exactly_first hc (hbs c (mem_cons_self ..)).1 (hbs c (mem_cons_self ..)).2)).bind fun cur h =>
            exactly_rest hc 1 (fun c hc => hbs c (mem_cons_of_mem _ hc)) hzc hzl' h
          rw [show 44828 + bs.length * 26166 = 25814 + (bs.length * 26166 + 19014) by ring,
            show 46 + bs.length * 26 = 26 + (bs.length * 26 + 20) by ring]
          exact this
      exact this.map fun r hr => ⟨(allV_flatMap hr).1, (allV_flatMap hr).2.1⟩
    · exact Exactly.panic
  · exact Exactly.panic

/-- Hashing 640 bits. -/
theorem exactly_640 (hc : CAPACITY F = 254) {input : List Boolean} (hi : AllV input) (hl : input.length = 640) :
    Exactly (F := F) (Bellman.Sha256.sha256 input) 51140 52 fun r => AllV r ∧ r.length = 256 := by
  obtain ⟨z, hz, hzc, hzl⟩ := Sha256.pad_eq input
  have hzl' : z.length = 384 := by rw [hzl, hl]
  have hf : Forall₂ AB.Fits (Bellman.Sha256.pad input) (replicate 640 .var ++ replicate 384 .any) := by
    rw [hz]
    exact rel_append (hl ▸ hi.fits) (hzl' ▸ hzc.fits)
  unfold Bellman.Sha256.sha256
  split
  · dsimp only
    split
    · have hr := Bellman.Sha256.chunksAux_rel 512 (Bellman.Sha256.pad input).length hf
      rw [show (Bellman.Sha256.pad input).length = 1024 by rw [hf.length_eq]; simp,
        show chunksAux 512 1024 (replicate 640 AB.var ++ replicate 384 .any) = [replicate 512 .var, replicate 128 .var ++ replicate 384 .any] by
          decide +kernel] at hr
      rw [chunks?, if_neg (by norm_num), show (Bellman.Sha256.pad input).length = 1024 by rw [hf.length_eq]; simp]
      dsimp only
      generalize chunksAux 512 1024 (Bellman.Sha256.pad input) = blocks at hr
      rcases hr with _ | ⟨hr1, _ | ⟨hr2, _ | _⟩⟩
      have := (Exactly.inNs s!"block {0}" ((ss_compression (F := F) hc hr1 fits_iv).eval eval_first)).bind fun cur h =>
        (Exactly.inNs s!"block {0 + 1}" ((ss_compression hc hr2 h).eval eval_640)).bind fun cur h =>
          (Exactly.pure (F := F) (Q := V8) h : Exactly (Bellman.Sha256.blockLoop 2 cur []) 0 0 V8)
      exact Exactly.map (g := 51140) (e := 52) this fun r hr => ⟨(allV_flatMap hr).1, (allV_flatMap hr).2.1⟩
    · exact Exactly.panic
  · exact Exactly.panic

/-- Hashing 256 bits. -/
theorem exactly_256 (hc : CAPACITY F = 254) {input : List Boolean} (hi : AllV input) (hl : input.length = 256) :
    Exactly (F := F) (Bellman.Sha256.sha256 input) 25218 26 fun r => AllV r ∧ r.length = 256 := by
  obtain ⟨z, hz, hzc, hzl⟩ := Sha256.pad_eq input
  have hzl' : z.length = 256 := by rw [hzl, hl]
  have hf : Forall₂ AB.Fits (Bellman.Sha256.pad input) (replicate 256 .var ++ replicate 256 .any) := by
    rw [hz]
    exact rel_append (hl ▸ hi.fits) (hzl' ▸ hzc.fits)
  unfold Bellman.Sha256.sha256
  split
  · dsimp only
    split
    · have hr := Bellman.Sha256.chunksAux_rel 512 (Bellman.Sha256.pad input).length hf
      rw [show (Bellman.Sha256.pad input).length = 512 by rw [hf.length_eq]; simp,
        show chunksAux 512 512 (replicate 256 AB.var ++ replicate 256 .any) = [replicate 256 .var ++ replicate 256 .any] by
          decide +kernel] at hr
      rw [chunks?, if_neg (by norm_num), show (Bellman.Sha256.pad input).length = 512 by rw [hf.length_eq]; simp]
      dsimp only
      generalize chunksAux 512 512 (Bellman.Sha256.pad input) = blocks at hr
      rcases hr with _ | ⟨hr1, _ | _⟩
      have := (Exactly.inNs s!"block {0}" ((ss_compression (F := F) hc hr1 fits_iv).eval eval_256)).bind fun cur h =>
          (Exactly.pure (F := F) (Q := V8) h : Exactly (Bellman.Sha256.blockLoop 1 cur []) 0 0 V8)
      exact Exactly.map (g := 25218) (e := 26) this fun r hr => ⟨(allV_flatMap hr).1, (allV_flatMap hr).2.1⟩
    · exact Exactly.panic
  · exact Exactly.panic

end Sha256

namespace Blake2s

/-- Sixteen words without constant bits. -/
abbrev V16 (l : List UInt32) : Prop := Forall₂ AW.Fits l (replicate 16 VW)

theorem exactly_first (hc : CAPACITY F = 254) {h m : List UInt32} (hh : AllC h) (hm : V16 m) (t : BitVec 64) (f : Bool) :
    Exactly (F := F) (Bellman.Blake2s.compression h m t f) 20960 46 V8 := by
  by_cases hl : h.length = 8
  · exact (ss_compression hc (hl ▸ forall₂_replicate hh : Forall₂ AW.Fits h (replicate 8 .con)) hm t f).eval eval_first
  · rw [Bellman.Blake2s.compression, if_neg hl]
    exact Exactly.panic

theorem exactly_next (hc : CAPACITY F = 254) {h m : List UInt32} (hh : V8 h) (hm : V16 m) (t : BitVec 64) (f : Bool) :
    Exactly (F := F) (Bellman.Blake2s.compression h m t f) 21344 46 V8 :=
  (ss_compression hc hh hm t f).eval eval_next

theorem exactly_rest (hc : CAPACITY F = 254) (len i : ℕ) {bs : List (List UInt32)} (hb : ∀ m ∈ bs, V16 m) {h : List UInt32} (hh : V8 h) :
    Exactly (F := F) (Bellman.Blake2s.blockLoop len i h bs) (bs.length * 21344) (bs.length * 46) V8 := by
  induction bs generalizing i h with
  | nil => exact Exactly.panic
  | cons b bs ih =>
    cases bs with
    | nil =>
      simp only [length_cons, length_nil, Nat.zero_add, Nat.one_mul]
      exact Exactly.inNs _ (exactly_next hc hh (hb b (mem_cons_self ..)) _ _)
    | cons b' bs =>
      have := (Exactly.inNs s!"block {i}" (exactly_next hc hh (hb b (mem_cons_self ..)) ((BitVec.ofNat 64 i + 1#64) * 64#64) false)).bind
        fun cur hc => ih (i + 1) (fun c hc => hb c (mem_cons_of_mem _ hc)) hc
      rw [length_cons, show ∀ n, (n + 1) * 21344 = 21344 + n * 21344 by intro n; ring, show ∀ n, (n + 1) * 46 = 46 + n * 46 by intro n; ring]
      exact this

theorem exactly_blocks (hc : CAPACITY F = 254) (len i : ℕ) {cs bs : List (List UInt32)} (hcs : ∀ m ∈ cs, AllC m) {b : List UInt32}
    (hb : ∀ m ∈ b :: bs, V16 m) {h : List UInt32} (hh : AllC h) :
    Exactly (F := F) (Bellman.Blake2s.blockLoop len i h (cs ++ b :: bs)) (20960 + bs.length * 21344) (46 + bs.length * 46) V8 := by
  induction cs generalizing i h with
  | nil =>
    rw [nil_append]
    cases bs with
    | nil => exact Exactly.inNs _ (exactly_first hc hh (hb b (mem_cons_self ..)) _ _)
    | cons b' bs =>
      exact (Exactly.inNs s!"block {i}" (exactly_first hc hh (hb b (mem_cons_self ..)) ((BitVec.ofNat 64 i + 1#64) * 64#64) false)).bind
        fun cur h => exactly_rest hc len (i + 1) (fun c hc => hb c (mem_cons_of_mem _ hc)) h
  | cons c cs ih =>
    have := (Exactly.inNs s!"block {i}" (exactly_compressionC (F := F) hh (hcs c (mem_cons_self ..)) ((BitVec.ofNat 64 i + 1#64) * 64#64)
      false)).bind fun cur h => ih (i + 1) (fun c hc => hcs c (mem_cons_of_mem _ hc)) h
    rw [Nat.zero_add, Nat.zero_add] at this
    cases cs with
    | nil => exact this
    | cons c' cs => exact this

theorem mkBlock_var {block : List Boolean} (h : AllV block) (hl : block.length = 512) {us : List UInt32}
    (hu : Bellman.Blake2s.mkBlock block = some us) : V16 us := by
  unfold Bellman.Blake2s.mkBlock at hu
  simp only [chunks?, if_neg (by norm_num : (32 : ℕ) ≠ 0), Option.bind_eq_bind, Option.bind_some] at hu
  obtain ⟨ws, h1, h2⟩ := Option.bind_eq_some_iff.1 hu
  have hr := Bellman.Sha256.chunksAux_rel 32 block.length h.fits
  rw [hl, show chunksAux 32 512 (replicate 512 AB.var) = replicate 16 (replicate 32 .var) by decide +kernel] at hr
  rw [hl] at h1
  have h3 := Bellman.Sha256.mapM_some h1
  have hwl : ws.length = 16 := by rw [← h3.length_eq, hr.length_eq]; rfl
  rw [hwl, Nat.sub_self, replicate_zero, append_nil] at h2
  cases h2
  unfold V16
  rw [← hwl]
  refine forall₂_replicate fun u hu => ?_
  obtain ⟨c, hc, e⟩ := forall₂_mem_right h3 hu
  have hc' := (of_forall₂_replicate hr).2 c hc
  rw [Bellman.Blake2s.padWord, (of_forall₂_replicate hc').1, Nat.sub_self, replicate_zero, append_nil] at e
  exact fits_wordOf hc' e

/-- Hashing whole blocks after a constant prefix of whole blocks. -/
theorem exactly_blake2s (hc : CAPACITY F = 254) {pre input : List Boolean} {p b : ℕ} (hp : AllB pre) (hpl : pre.length = 512 * p)
    (hi : AllV input) (hl : input.length = 512 * (b + 1)) (pers : List (BitVec 8)) :
    Exactly (F := F) (Bellman.Blake2s.blake2s (pre ++ input) pers) (20960 + b * 21344) (46 + b * 46) fun r => AllV r ∧ r.length = 256 := by
  obtain ⟨cs, c1, c2, c3⟩ := pieces _ _ hpl
  obtain ⟨bs, h1, h2, h3⟩ := pieces _ _ hl
  unfold Bellman.Blake2s.blake2s
  split
  · split
    · dsimp only
      split
      · rename_i blocks hb
        have : ∃ xs ys, blocks = xs ++ ys ∧ (∀ m ∈ xs, AllC m) ∧ (∀ m ∈ ys, V16 m) ∧ ys.length = b + 1 := by
          unfold Bellman.Blake2s.mkBlocks at hb
          rw [c3, h3, ← flatten_append, chunks_pieces] at hb
          · simp only [Option.bind_eq_bind, Option.bind_some] at hb
            obtain ⟨ws, k1, k2⟩ := Option.bind_eq_some_iff.1 hb
            have k3 := Bellman.Sha256.mapM_some k1
            obtain ⟨xs, ys, rfl, g1, g2⟩ : ∃ xs ys, ws = xs ++ ys ∧ Forall₂ (fun a b => Bellman.Blake2s.mkBlock a = some b) cs xs ∧
                Forall₂ (fun a b => Bellman.Blake2s.mkBlock a = some b) bs ys :=
              ⟨ws.take cs.length, ws.drop cs.length, (take_append_drop _ _).symm, by
                simpa using forall₂_take cs.length k3, by simpa using forall₂_drop cs.length k3⟩
            have hys : ys.length = b + 1 := by rw [← g2.length_eq, h1]
            rw [if_neg (by cases ys with
              | nil => cases hys
              | cons y ys => simp)] at k2
            cases k2
            refine ⟨xs, ys, rfl, fun m hm => ?_, fun m hm => ?_, hys⟩
            · obtain ⟨c, hc, e⟩ := forall₂_mem_right g1 hm
              exact mkBlock_const (fun x hx => hp x (by rw [c3]; exact mem_flatten.2 ⟨c, hc, hx⟩)) e
            · obtain ⟨c, hc, e⟩ := forall₂_mem_right g2 hm
              exact mkBlock_var (fun x hx => hi x (by rw [h3]; exact mem_flatten.2 ⟨c, hc, hx⟩)) (h2 c hc) e
          · intro c hc
            rcases mem_append.1 hc with hc | hc
            · exact c2 c hc
            · exact h2 c hc
        obtain ⟨xs, ys, rfl, hx, hy, hyl⟩ := this
        cases ys with
        | nil => cases hyl
        | cons y ys =>
          have hyl' : ys.length = b := by simpa using hyl
          subst hyl'
          refine (exactly_blocks hc _ 0 hx hy ?_).map fun r hr => ⟨(allV_flatMap hr).2.2.1, (allV_flatMap hr).2.2.2⟩
          exact .cons ⟨_, rfl⟩ <| .cons ⟨_, rfl⟩ <| .cons ⟨_, rfl⟩ <| .cons ⟨_, rfl⟩ <| .cons ⟨_, rfl⟩ <| .cons ⟨_, rfl⟩ <|
            .cons ⟨_, rfl⟩ <| .cons ⟨_, rfl⟩ .nil
      · exact Exactly.panic
    · exact Exactly.panic
  · exact Exactly.panic

end Blake2s

end Bellman.Cost

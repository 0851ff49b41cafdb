import Verif.TestHash
import Verif.Props.TestCS

/-!
# C40: the hash that the tests record identifies the constraints
-/

namespace Bellman

open PrimeField

variable {F : Type} [PrimeField F]

/-- Two byte strings with the same BLAKE2s digest (specification). -/
def Blake2sCollision (m m' : List UInt8) : Prop :=
  m ≠ m' ∧ Spec.Blake2s.blake2s [] (m.map UInt8.toBitVec) = Spec.Blake2s.blake2s [] (m'.map UInt8.toBitVec)

private theorem hexDigit_inj : ∀ a < 16, ∀ b < 16, hexDigit a = hexDigit b → a = b := by decide

private theorem hexDigit_mem : ∀ a < 16, hexDigit a ∈ "0123456789abcdef".toList := by decide

private theorem hexByte_inj {a b : BitVec 8} (h : hexByte a = hexByte b) : a = b := by
  have ha := a.isLt
  have hb := b.isLt
  simp only [hexByte, List.cons.injEq, and_true] at h
  have h1 := hexDigit_inj _ (by omega) _ (by omega) h.1
  have h2 := hexDigit_inj _ (by omega) _ (by omega) h.2
  exact BitVec.eq_of_toNat_eq (by omega)

private theorem hex_inj {l l' : List (BitVec 8)} (h : l.flatMap hexByte = l'.flatMap hexByte) : l = l' := by
  induction l generalizing l' with
  | nil =>
    cases l' with
    | nil => rfl
    | cons b l' => simp [hexByte] at h
  | cons a l ih =>
    cases l' with
    | nil => simp [hexByte] at h
    | cons b l' =>
      rw [List.flatMap_cons, List.flatMap_cons] at h
      obtain ⟨h1, h2⟩ := List.append_inj h rfl
      rw [hexByte_inj h1, ih h2]

private theorem G_length (v : List (BitVec 32)) (a b c d : ℕ) (x y : BitVec 32) : (Spec.Blake2s.G v a b c d x y).length = v.length := by
  simp [Spec.Blake2s.G, Spec.Blake2s.add3, Spec.Blake2s.add2, Spec.Blake2s.xorRot]

private theorem round_length (m v : List (BitVec 32)) (i : ℕ) : (Spec.Blake2s.round m i v).length = v.length := by
  simp [Spec.Blake2s.round, G_length]

private theorem blake2s_length (m : List (BitVec 8)) : (Spec.Blake2s.blake2s [] m).length = 32 := by
  have h8 : (Spec.Blake2s.final [] m).length = 8 := by simp [Spec.Blake2s.final, Spec.Blake2s.compress]
  unfold Spec.Blake2s.blake2s
  rw [List.length_flatMap]
  simp [Spec.Blake2s.leBytes, h8]

/-- C40. The hash is a string of 64 hexadecimal digits. It is the same for constraint systems with the same numbers of variables and
the same normal forms of all constraints, whatever the values and names; and two systems with the same hash either agree in all that,
or give two explicit byte strings with the same BLAKE2s digest. -/
theorem C40_hash (toRepr : F → List UInt8) (hinj : Function.Injective toRepr) (s s' : TestCS F) :
    (∀ h, s.hash toRepr = some h → h.toList.length = 64 ∧ ∀ c ∈ h.toList, c ∈ "0123456789abcdef".toList) ∧
    (SameNormalForm s s' → s.hash toRepr = s'.hash toRepr) ∧
    (∀ h, s.hash toRepr = some h → s'.hash toRepr = some h →
      (∀ u ∈ [s, s'], u.inputs.length < 2 ^ 64 ∧ u.aux.length < 2 ^ 64 ∧ u.constraints.length < 2 ^ 64 ∧
        ∀ k ∈ u.constraints, ∀ l ∈ [k.1, k.2.1, k.2.2.1], (procLc l.terms).length < 2 ^ 64 ∧ ∀ e ∈ procLc l.terms, e.1.Small) →
      SameNormalForm s s' ∨ ∃ m m', s.hashInput toRepr = some m ∧ s'.hashInput toRepr = some m' ∧ Blake2sCollision m m') := by
  refine ⟨?_, fun h => by unfold TestCS.hash; rw [C40_hash_congr toRepr h], ?_⟩
  · intro h hh
    obtain ⟨m, -, rfl⟩ := Option.map_eq_some_iff.1 hh
    rw [String.toList_ofList]
    constructor
    · have : ∀ l : List (BitVec 8), (l.flatMap hexByte).length = 2 * l.length := by
        intro l
        induction l with
        | nil => rfl
        | cons b l ih => rw [List.flatMap_cons, List.length_append, ih, List.length_cons]; simp [hexByte]; omega
      rw [this, blake2s_length]
    · intro c hc
      obtain ⟨b, -, hb⟩ := List.mem_flatMap.1 hc
      have := b.isLt
      simp only [hexByte, List.mem_cons, List.not_mem_nil, or_false] at hb
      rcases hb with rfl | rfl
      · exact hexDigit_mem _ (by omega)
      · exact hexDigit_mem _ (by omega)
  · intro h hh hh' hb
    obtain ⟨m, e1, e2⟩ := Option.map_eq_some_iff.1 hh
    obtain ⟨m', e1', e2'⟩ := Option.map_eq_some_iff.1 hh'
    by_cases hm : m = m'
    · subst hm
      exact .inl (C40_hash_inj toRepr hinj hb e1 e1')
    · refine .inr ⟨m, m', e1, e1', hm, hex_inj ?_⟩
      have := congrArg String.toList (e2.trans e2'.symm)
      rwa [String.toList_ofList, String.toList_ofList] at this

/-- The hash of the empty constraint system: BLAKE2s of three numbers of eight bytes, one, zero and zero. -/
example (toRepr : DummyFr → List UInt8) : (TestCS.new : TestCS DummyFr).hash toRepr = some (String.ofList
    ((Spec.Blake2s.blake2s [] (([0, 0, 0, 0, 0, 0, 0, 1] ++ List.replicate 16 0).map fun n => BitVec.ofNat 8 n)).flatMap hexByte)) := by
  rfl

end Bellman

import Verif.Proofs.Serialize

/-!
# C37, C38: serialization

`p.encoding` is the byte format (`Verif.Spec.Encoding`).  A writer `⟨out, none⟩` takes any number of bytes, `⟨out, some n⟩` takes `n`
more and then fails.  `Valid` says of a point that the checked decoder accepts it (it is on the curve and in the right subgroup).
-/

namespace Bellman

set_option linter.unusedSectionVars false

variable {G1 G2 : Type} [Zero G1] [Zero G2] [DecidableEq G1] [DecidableEq G2] (c1 : PointCodec G1) (c2 : PointCodec G2)

/-! ### C37 -/

theorem writeAll_room (bs out : List UInt8) : writeAll bs ⟨out, none⟩ = (.ok (), ⟨out ++ bs, none⟩) := rfl

/-- C37: a proof without the identity is read back, whatever follows, and exactly its bytes are consumed. -/
theorem C37_proof (p : Proof G1 G2) (hv : p.Valid c1 c2) (ha : p.a ≠ 0) (hb : p.b ≠ 0) (hc : p.c ≠ 0) :
    ∃ bytes, (∀ out, p.write c1 c2 ⟨out, none⟩ = (.ok (), ⟨out ++ bytes, none⟩)) ∧
      ∀ rest, Proof.read c1 c2 (bytes ++ rest) = some (.ok (p, rest)) :=
  ⟨p.encoding c1 c2, fun out => by rw [p.write_eq, writeAll_room], (Proof.read_parses c1 c2 p hv ha hb hc).full⟩

/-- C37: what `Proof::read` accepts is what `Proof::write` writes. -/
theorem C37_proof_canonical (bs rest : List UInt8) (p : Proof G1 G2) (h : Proof.read c1 c2 bs = some (.ok (p, rest))) :
    ∃ bytes, bs = bytes ++ rest ∧ ∀ out, p.write c1 c2 ⟨out, none⟩ = (.ok (), ⟨out ++ bytes, none⟩) := by
  obtain ⟨u, h1, rfl, _⟩ := (Proof.read_accepting c1 c2).ok bs p rest h
  exact ⟨_, h1, fun out => by rw [p.write_eq, writeAll_room]⟩

/-- C37: a verifying key whose `ic` contains no identity is read back; the other elements may be the identity. -/
theorem C37_vk (vk : VerifyingKey G1 G2) (hv : vk.Valid c1 c2) (h0 : ∀ g ∈ vk.ic, g ≠ 0) (hl : vk.ic.length < 2 ^ 32) :
    ∃ bytes, (∀ out, vk.write c1 c2 ⟨out, none⟩ = (.ok (), ⟨out ++ bytes, none⟩)) ∧
      ∀ rest, VerifyingKey.read c1 c2 (bytes ++ rest) = some (.ok (vk, rest)) :=
  ⟨vk.encoding c1 c2, fun out => by rw [vk.write_eq, writeAll_room], (VerifyingKey.read_parses c1 c2 vk hv ⟨h0, hl⟩).full⟩

/-- C37: what `VerifyingKey::read` accepts is what `VerifyingKey::write` writes. -/
theorem C37_vk_canonical (bs rest : List UInt8) (vk : VerifyingKey G1 G2) (h : VerifyingKey.read c1 c2 bs = some (.ok (vk, rest))) :
    ∃ bytes, bs = bytes ++ rest ∧ ∀ out, vk.write c1 c2 ⟨out, none⟩ = (.ok (), ⟨out ++ bytes, none⟩) := by
  obtain ⟨u, h1, rfl, _⟩ := (VerifyingKey.read_accepting c1 c2).ok bs vk rest h
  exact ⟨_, h1, fun out => by rw [vk.write_eq, writeAll_room]⟩

/-- C37: parameters without identities in `ic` and the queries are read back; without checks even if points of the queries are
invalid. -/
theorem C37_parameters (checked : Bool) (p : Parameters G1 G2) (hk : p.vk.Valid c1 c2) (hv : checked = true → p.Valid c1 c2)
    (h1 : ∀ v ∈ [p.vk.ic, p.h, p.l, p.a, p.bG1], (∀ g ∈ v, g ≠ 0) ∧ v.length < 2 ^ 32)
    (h2 : (∀ g ∈ p.bG2, g ≠ 0) ∧ p.bG2.length < 2 ^ 32) :
    ∃ bytes, (∀ out, p.write c1 c2 ⟨out, none⟩ = (.ok (), ⟨out ++ bytes, none⟩)) ∧
      ∀ rest, Parameters.read c1 c2 checked (bytes ++ rest) = some (.ok (p, rest)) := by
  have s : ∀ v ∈ [p.vk.ic, p.h, p.l, p.a, p.bG1], Storable v := fun v hv => ⟨(h1 v hv).1, (h1 v hv).2⟩
  exact ⟨p.encoding c1 c2, fun out => by rw [p.write_eq, writeAll_room],
    (Parameters.read_parses c1 c2 checked p hk hv (s _ (by simp)) (s _ (by simp)) (s _ (by simp)) (s _ (by simp)) (s _ (by simp))
      ⟨h2.1, h2.2⟩).full⟩

/-- C37: what `Parameters::read` accepts is what `Parameters::write` writes. -/
theorem C37_parameters_canonical (checked : Bool) (bs rest : List UInt8) (p : Parameters G1 G2)
    (h : Parameters.read c1 c2 checked bs = some (.ok (p, rest))) :
    ∃ bytes, bs = bytes ++ rest ∧ ∀ out, p.write c1 c2 ⟨out, none⟩ = (.ok (), ⟨out ++ bytes, none⟩) := by
  obtain ⟨u, h1, rfl, _⟩ := (Parameters.read_accepting c1 c2 checked).ok bs p rest h
  exact ⟨_, h1, fun out => by rw [p.write_eq, writeAll_room]⟩

/-- C37: what the checked reader accepts, the unchecked reader reads in the same way. -/
theorem C37_unchecked (bs rest : List UInt8) (p : Parameters G1 G2) (h : Parameters.read c1 c2 true bs = some (.ok (p, rest))) :
    Parameters.read c1 c2 false bs = some (.ok (p, rest)) := by
  obtain ⟨u, rfl, rfl, hk, _, s1, s2, s3, s4, s5, s6⟩ := (Parameters.read_accepting c1 c2 true).ok bs p rest h
  exact (Parameters.read_parses c1 c2 false p hk (fun h => (by cases h)) s1 s2 s3 s4 s5 s6).full rest

/-- C37: why the length is limited: of a key with more than `2^32 - 1` input elements only the first `len mod 2^32` are read back and
the rest is left in the input; nothing reports an error. -/
theorem C37_truncated (vk : VerifyingKey G1 G2) (hv : vk.Valid c1 c2) (h0 : ∀ g ∈ vk.ic, g ≠ 0) (out rest : List UInt8) :
    ∃ bytes left, vk.write c1 c2 ⟨out, none⟩ = (.ok (), ⟨out ++ bytes, none⟩) ∧
      VerifyingKey.read c1 c2 (bytes ++ rest) = some (.ok ({ vk with ic := vk.ic.take (vk.ic.length % 2 ^ 32) }, left ++ rest)) ∧
      left = (vk.ic.drop (vk.ic.length % 2 ^ 32)).flatMap c1.toUncompressed := by
  refine ⟨vk.encoding c1 c2, _, by rw [vk.write_eq, writeAll_room], ?_, rfl⟩
  have hsplit : vk.encoding c1 c2 = ({ vk with ic := vk.ic.take (vk.ic.length % 2 ^ 32) } : VerifyingKey G1 G2).encoding c1 c2 ++
      (vk.ic.drop (vk.ic.length % 2 ^ 32)).flatMap c1.toUncompressed := by
    unfold VerifyingKey.encoding vecEncoding
    have hl : (vk.ic.take (vk.ic.length % 2 ^ 32)).length = vk.ic.length % 2 ^ 32 := by
      rw [List.length_take]
      exact Nat.min_eq_left (Nat.mod_le _ _)
    have hb : be32 (vk.ic.length % 2 ^ 32) = be32 vk.ic.length := by
      unfold be32
      have e1 : UInt8.ofNat (vk.ic.length % 2 ^ 32 / 2 ^ 24) = UInt8.ofNat (vk.ic.length / 2 ^ 24) := by
        apply UInt8.toNat_inj.1; rw [UInt8.toNat_ofNat', UInt8.toNat_ofNat']; omega
      have e2 : UInt8.ofNat (vk.ic.length % 2 ^ 32 / 2 ^ 16) = UInt8.ofNat (vk.ic.length / 2 ^ 16) := by
        apply UInt8.toNat_inj.1; rw [UInt8.toNat_ofNat', UInt8.toNat_ofNat']; omega
      have e3 : UInt8.ofNat (vk.ic.length % 2 ^ 32 / 2 ^ 8) = UInt8.ofNat (vk.ic.length / 2 ^ 8) := by
        apply UInt8.toNat_inj.1; rw [UInt8.toNat_ofNat', UInt8.toNat_ofNat']; omega
      have e4 : UInt8.ofNat (vk.ic.length % 2 ^ 32) = UInt8.ofNat vk.ic.length := by
        apply UInt8.toNat_inj.1; rw [UInt8.toNat_ofNat', UInt8.toNat_ofNat']; omega
      rw [e1, e2, e3, e4]
    simp only [hl, hb, List.append_assoc]
    rw [← List.flatMap_append, List.take_append_drop]
  rw [hsplit, List.append_assoc]
  refine (VerifyingKey.read_parses c1 c2 _ ?_ ⟨fun g hg => h0 g (List.mem_of_mem_take hg), ?_⟩).full _
  · exact ⟨hv.alphaG1, hv.betaG1, hv.betaG2, hv.gammaG2, hv.deltaG1, hv.deltaG2, fun g hg => hv.ic g (List.mem_of_mem_take hg)⟩
  · show (vk.ic.take (vk.ic.length % 2 ^ 32)).length < _
    rw [List.length_take]
    exact lt_of_le_of_lt (Nat.min_le_left _ _) (Nat.mod_lt _ (by norm_num))

/-! ### C38 -/

/-- C38: the encoding of a proof with the identity in any position is refused. -/
theorem C38_proof_identity (p : Proof G1 G2) (hv : p.Valid c1 c2) (h0 : p.a = 0 ∨ p.b = 0 ∨ p.c = 0) :
    ∃ bytes, (∀ out, p.write c1 c2 ⟨out, none⟩ = (.ok (), ⟨out ++ bytes, none⟩)) ∧
      ∀ rest, Proof.read c1 c2 (bytes ++ rest) = some (.error (.invalidData "point at infinity")) := by
  refine ⟨p.encoding c1 c2, fun out => by rw [p.write_eq, writeAll_room], ?_⟩
  change ReadFails _ _ _
  unfold Proof.read Proof.encoding
  rw [List.append_assoc, ← List.append_nil (c1.toBytes p.c)]
  have hv1 := hv.a; have hv2 := hv.b; have hv3 := hv.c
  by_cases ha : p.a = 0
  · rw [ha] at hv1 ⊢
    exact (Proof.readPoint_fails c1 _ hv1).bind _ _
  · refine (Proof.readPoint_parses c1 _ _ hv1 ha).readFails ?_
    by_cases hb : p.b = 0
    · rw [hb] at hv2 ⊢
      exact (Proof.readPoint_fails c2 _ hv2).bind _ _
    · refine (Proof.readPoint_parses c2 _ _ hv2 hb).readFails ?_
      have hc : p.c = 0 := by tauto
      rw [hc] at hv3 ⊢
      exact (Proof.readPoint_fails c1 _ hv3).bind _ _

/-- C38: whatever the bytes, an accepted proof consists of valid points other than the identity. -/
theorem C38_proof_accepted (bs rest : List UInt8) (p : Proof G1 G2) (h : Proof.read c1 c2 bs = some (.ok (p, rest))) :
    p.Valid c1 c2 ∧ p.a ≠ 0 ∧ p.b ≠ 0 ∧ p.c ≠ 0 := by
  obtain ⟨u, _, _, h⟩ := (Proof.read_accepting c1 c2).ok bs p rest h
  exact h

/-- C38: the encoding of a verifying key with an identity in `ic` is refused. -/
theorem C38_vk_identity (vk : VerifyingKey G1 G2) (hv : vk.Valid c1 c2) (hl : vk.ic.length < 2 ^ 32) (hz : (0 : G1) ∈ vk.ic) :
    ∃ bytes, (∀ out, vk.write c1 c2 ⟨out, none⟩ = (.ok (), ⟨out ++ bytes, none⟩)) ∧
      ∀ rest, VerifyingKey.read c1 c2 (bytes ++ rest) = some (.error (.invalidData "point at infinity")) :=
  ⟨vk.encoding c1 c2, fun out => by rw [vk.write_eq, writeAll_room], VerifyingKey.read_fails c1 c2 vk hv hl hz⟩

/-- C38: whatever the bytes, an accepted verifying key consists of valid points, and `ic` does not contain the identity. -/
theorem C38_vk_accepted (bs rest : List UInt8) (vk : VerifyingKey G1 G2) (h : VerifyingKey.read c1 c2 bs = some (.ok (vk, rest))) :
    vk.Valid c1 c2 ∧ ∀ g ∈ vk.ic, g ≠ 0 := by
  obtain ⟨u, _, _, h1, h2⟩ := (VerifyingKey.read_accepting c1 c2).ok bs vk rest h
  exact ⟨h1, h2.nonzero⟩

/-- C38: parameters with an identity in `ic` or in any query are refused, with and without checks. -/
theorem C38_parameters_identity (checked : Bool) (p : Parameters G1 G2) (hk : p.vk.Valid c1 c2) (hv : checked = true → p.Valid c1 c2)
    (hl : ∀ v ∈ [p.vk.ic, p.h, p.l, p.a, p.bG1], v.length < 2 ^ 32) (hl2 : p.bG2.length < 2 ^ 32)
    (hz : (∃ v ∈ [p.vk.ic, p.h, p.l, p.a, p.bG1], (0 : G1) ∈ v) ∨ (0 : G2) ∈ p.bG2) :
    ∃ bytes, (∀ out, p.write c1 c2 ⟨out, none⟩ = (.ok (), ⟨out ++ bytes, none⟩)) ∧
      ∀ rest, Parameters.read c1 c2 checked (bytes ++ rest) = some (.error (.invalidData "point at infinity")) := by
  refine ⟨p.encoding c1 c2, fun out => by rw [p.write_eq, writeAll_room], ?_⟩
  change ReadFails _ _ _
  unfold Parameters.read Parameters.encoding
  rw [← List.append_nil (vecEncoding c2 p.bG2)]
  simp only [List.append_assoc]
  have ok1 : ∀ (v : List G1), (checked = true → ∀ g ∈ v, c1.Valid g) → ∀ g ∈ v, g ≠ 0 →
      Parses (Parameters.readPoint c1 "invalid G1" checked) (c1.toUncompressed g) g :=
    fun v hv g hg h0 => Parameters.readPoint_parses c1 _ _ g (fun h => hv h g hg) h0
  have bad1 : ∀ (v : List G1), (checked = true → ∀ g ∈ v, c1.Valid g) → (0 : G1) ∈ v →
      ReadFails (Parameters.readPoint c1 "invalid G1" checked) (c1.toUncompressed 0) (.invalidData "point at infinity") :=
    fun v hv h0 => Parameters.readPoint_fails c1 _ _ (fun h => hv h 0 h0)
  have ne : ∀ (v : List G1), (0 : G1) ∉ v → ∀ g ∈ v, g ≠ 0 := fun v h g hg h0 => h (h0 ▸ hg)
  by_cases z0 : (0 : G1) ∈ p.vk.ic
  · exact (VerifyingKey.read_fails c1 c2 p.vk hk (hl _ (by simp)) z0).bind _ _
  refine (VerifyingKey.read_parses c1 c2 p.vk hk ⟨ne _ z0, hl _ (by simp)⟩).readFails ?_
  by_cases z1 : (0 : G1) ∈ p.h
  · exact (readVec_fails c1 p.h (ok1 p.h fun h => (hv h).h) (bad1 p.h fun h => (hv h).h) z1 (hl _ (by simp))).bind _ _
  refine (readVec_parses c1 p.h (fun g hg => ok1 p.h (fun h => (hv h).h) g hg (ne _ z1 g hg)) (hl _ (by simp))).readFails ?_
  by_cases z2 : (0 : G1) ∈ p.l
  · exact (readVec_fails c1 p.l (ok1 p.l fun h => (hv h).l) (bad1 p.l fun h => (hv h).l) z2 (hl _ (by simp))).bind _ _
  refine (readVec_parses c1 p.l (fun g hg => ok1 p.l (fun h => (hv h).l) g hg (ne _ z2 g hg)) (hl _ (by simp))).readFails ?_
  by_cases z3 : (0 : G1) ∈ p.a
  · exact (readVec_fails c1 p.a (ok1 p.a fun h => (hv h).a) (bad1 p.a fun h => (hv h).a) z3 (hl _ (by simp))).bind _ _
  refine (readVec_parses c1 p.a (fun g hg => ok1 p.a (fun h => (hv h).a) g hg (ne _ z3 g hg)) (hl _ (by simp))).readFails ?_
  by_cases z4 : (0 : G1) ∈ p.bG1
  · exact (readVec_fails c1 p.bG1 (ok1 p.bG1 fun h => (hv h).bG1) (bad1 p.bG1 fun h => (hv h).bG1) z4 (hl _ (by simp))).bind _ _
  refine (readVec_parses c1 p.bG1 (fun g hg => ok1 p.bG1 (fun h => (hv h).bG1) g hg (ne _ z4 g hg)) (hl _ (by simp))).readFails ?_
  have z5 : (0 : G2) ∈ p.bG2 := by
    rcases hz with ⟨v, hv, h⟩ | h
    · simp only [List.mem_cons, List.not_mem_nil, or_false] at hv
      rcases hv with rfl | rfl | rfl | rfl | rfl <;> contradiction
    · exact h
  exact (readVec_fails c2 p.bG2 (fun g hg h0 => Parameters.readPoint_parses c2 _ _ g (fun h => (hv h).bG2 g hg) h0)
    (fun h0 => Parameters.readPoint_fails c2 _ _ (fun h => (hv h).bG2 0 h0)) z5 hl2).bind _ _

/-- C38: whatever the bytes, no identity is in `ic` or a query of accepted parameters; the points of the key are valid, and with checks
those of the queries too. -/
theorem C38_parameters_accepted (checked : Bool) (bs rest : List UInt8) (p : Parameters G1 G2)
    (h : Parameters.read c1 c2 checked bs = some (.ok (p, rest))) :
    p.vk.Valid c1 c2 ∧ (checked = true → p.Valid c1 c2) ∧
    (∀ v ∈ [p.vk.ic, p.h, p.l, p.a, p.bG1], ∀ g ∈ v, g ≠ 0) ∧ ∀ g ∈ p.bG2, g ≠ 0 := by
  obtain ⟨u, _, _, h1, h2, s1, s2, s3, s4, s5, s6⟩ := (Parameters.read_accepting c1 c2 checked).ok bs p rest h
  refine ⟨h1, h2, fun v hv => ?_, s6.nonzero⟩
  simp only [List.mem_cons, List.not_mem_nil, or_false] at hv
  rcases hv with rfl | rfl | rfl | rfl | rfl
  · exact s1.nonzero
  · exact s2.nonzero
  · exact s3.nonzero
  · exact s4.nonzero
  · exact s5.nonzero

/-- C38: no byte string makes a reader panic. -/
theorem C38_no_panic (checked : Bool) (bs : List UInt8) :
    Proof.read c1 c2 bs ≠ none ∧ VerifyingKey.read c1 c2 bs ≠ none ∧ Parameters.read c1 c2 checked bs ≠ none :=
  ⟨(Proof.read_accepting c1 c2).total bs, (VerifyingKey.read_accepting c1 c2).total bs, (Parameters.read_accepting c1 c2 checked).total bs⟩

/-- A writer with less room than the bytes: the write fails, a proper prefix is written. -/
theorem writeAll_cut (bs : List UInt8) (n : ℕ) (hn : n < bs.length) :
    writeAll bs ⟨[], some n⟩ = (.error .writeZero, ⟨bs.take n, some 0⟩) ∧ bs.take n <+: bs ∧ bs.take n ≠ bs := by
  refine ⟨by simp [writeAll]; omega, List.take_prefix _ _, fun h => ?_⟩
  have := congrArg List.length h
  rw [List.length_take] at this
  omega

/-- C38: if what `Proof::read` accepts is cut short, reading fails; in particular when writing it fails half way, at any byte. -/
theorem C38_proof_cut (bs : List UInt8) (p : Proof G1 G2) (h : Proof.read c1 c2 bs = some (.ok (p, []))) (n : ℕ) (hn : n < bs.length) :
    Proof.read c1 c2 (bs.take n) = some (.error .unexpectedEof) ∧
    p.write c1 c2 ⟨[], some n⟩ = (.error .writeZero, ⟨bs.take n, some 0⟩) := by
  obtain ⟨u, rfl, rfl, h1, h2, h3, h4⟩ := (Proof.read_accepting c1 c2).ok bs p [] h
  rw [List.append_nil] at hn ⊢
  obtain ⟨w, hp, hne⟩ := writeAll_cut (p.encoding c1 c2) n hn
  exact ⟨(Proof.read_parses c1 c2 p h1 h2 h3 h4).cut _ hp hne, by rw [p.write_eq, w]⟩

/-- C38: the same for verifying keys. -/
theorem C38_vk_cut (bs : List UInt8) (vk : VerifyingKey G1 G2) (h : VerifyingKey.read c1 c2 bs = some (.ok (vk, []))) (n : ℕ)
    (hn : n < bs.length) :
    VerifyingKey.read c1 c2 (bs.take n) = some (.error .unexpectedEof) ∧
    vk.write c1 c2 ⟨[], some n⟩ = (.error .writeZero, ⟨bs.take n, some 0⟩) := by
  obtain ⟨u, rfl, rfl, h1, h2⟩ := (VerifyingKey.read_accepting c1 c2).ok bs vk [] h
  rw [List.append_nil] at hn ⊢
  obtain ⟨w, hp, hne⟩ := writeAll_cut (vk.encoding c1 c2) n hn
  exact ⟨(VerifyingKey.read_parses c1 c2 vk h1 h2).cut _ hp hne, by rw [vk.write_eq, w]⟩

/-- C38: the same for parameters. -/
theorem C38_parameters_cut (checked : Bool) (bs : List UInt8) (p : Parameters G1 G2)
    (h : Parameters.read c1 c2 checked bs = some (.ok (p, []))) (n : ℕ) (hn : n < bs.length) :
    Parameters.read c1 c2 checked (bs.take n) = some (.error .unexpectedEof) ∧
    p.write c1 c2 ⟨[], some n⟩ = (.error .writeZero, ⟨bs.take n, some 0⟩) := by
  obtain ⟨u, rfl, rfl, h1, h2, s1, s2, s3, s4, s5, s6⟩ := (Parameters.read_accepting c1 c2 checked).ok bs p [] h
  rw [List.append_nil] at hn ⊢
  obtain ⟨w, hp, hne⟩ := writeAll_cut (p.encoding c1 c2) n hn
  exact ⟨(Parameters.read_parses c1 c2 checked p h1 h2 s1 s2 s3 s4 s5 s6).cut _ hp hne, by rw [p.write_eq, w]⟩

/-! ### A concrete codec -/

/-- A codec for bytes: compressed, the byte itself; uncompressed, the byte twice; 255 is not a valid point. -/
def byteCodec : PointCodec UInt8 where
  size := 1
  toBytes g := [g]
  toBytes_length _ := rfl
  fromBytes
    | [g] => if g = 255 then none else some g
    | _ => none
  Valid g := g ≠ 255
  fromBytes_toBytes g h := if_neg h
  fromBytes_valid bs g h := by
    split at h
    · split at h
      · cases h
      · cases h; assumption
    · cases h
  toBytes_fromBytes bs g _ h := by
    split at h
    · split at h
      · cases h
      · cases h; rfl
    · cases h
  usize := 2
  toUncompressed g := [g, g]
  toUncompressed_length _ := rfl
  fromUncompressed
    | [g, g'] => if g = g' ∧ g ≠ 255 then some g else none
    | _ => none
  fromUncompressedUnchecked
    | [g, g'] => if g = g' then some g else none
    | _ => none
  fromUncompressed_toUncompressed g h := if_pos ⟨rfl, h⟩
  fromUncompressed_valid bs g h := by
    split at h
    · split at h
      · rename_i h'; cases h; exact h'.2
      · cases h
    · cases h
  unchecked_toUncompressed g := if_pos rfl
  toUncompressed_unchecked bs g _ h := by
    split at h
    · split at h
      · rename_i h'; cases h; rw [h']
      · cases h
    · cases h
  unchecked_of_checked bs g h := by
    split at h
    · split at h
      · rename_i h'; cases h; exact if_pos h'.1
      · cases h
    · cases h

instance (g : UInt8) : Decidable (byteCodec.Valid g) := inferInstanceAs (Decidable (g ≠ 255))

/-- A key for the examples; `gamma_g2` is the identity. -/
def byteKey : VerifyingKey UInt8 UInt8 :=
  { alphaG1 := 2, betaG1 := 3, betaG2 := 4, gammaG2 := 0, deltaG1 := 5, deltaG2 := 6, ic := [7, 8] }

theorem byteKey_valid : byteKey.Valid byteCodec byteCodec :=
  ⟨by decide, by decide, by decide, by decide, by decide, by decide, by decide⟩

/-- `C37_proof`, `C37_vk`, `C37_parameters` apply: the last with an invalid point when reading unchecked. -/
example : (∃ bytes, (∀ out, (⟨1, 2, 3⟩ : Proof UInt8 UInt8).write byteCodec byteCodec ⟨out, none⟩ = (.ok (), ⟨out ++ bytes, none⟩)) ∧
      ∀ rest, Proof.read byteCodec byteCodec (bytes ++ rest) = some (.ok (⟨1, 2, 3⟩, rest))) ∧
    (∃ bytes, (∀ out, byteKey.write byteCodec byteCodec ⟨out, none⟩ = (.ok (), ⟨out ++ bytes, none⟩)) ∧
      ∀ rest, VerifyingKey.read byteCodec byteCodec (bytes ++ rest) = some (.ok (byteKey, rest))) ∧
    (∃ bytes, (∀ out, (⟨byteKey, [9], [1, 1], [], [3, 4], [255]⟩ : Parameters UInt8 UInt8).write byteCodec byteCodec ⟨out, none⟩ =
        (.ok (), ⟨out ++ bytes, none⟩)) ∧
      ∀ rest, Parameters.read byteCodec byteCodec false (bytes ++ rest) = some (.ok (⟨byteKey, [9], [1, 1], [], [3, 4], [255]⟩, rest))) :=
  ⟨C37_proof _ _ _ ⟨by decide, by decide, by decide⟩ (by decide) (by decide) (by decide),
   C37_vk _ _ _ byteKey_valid (by decide) (by decide),
   C37_parameters _ _ false _ byteKey_valid (fun h => (by cases h)) (by decide) (by decide)⟩

/-- `C38_proof_identity`, `C38_vk_identity`, `C38_parameters_identity` apply. -/
example : (∃ bytes, (∀ out, (⟨1, 0, 3⟩ : Proof UInt8 UInt8).write byteCodec byteCodec ⟨out, none⟩ = (.ok (), ⟨out ++ bytes, none⟩)) ∧
      ∀ rest, Proof.read byteCodec byteCodec (bytes ++ rest) = some (.error (.invalidData "point at infinity"))) ∧
    (∃ bytes, (∀ out, ({ byteKey with ic := [1, 0] } : VerifyingKey UInt8 UInt8).write byteCodec byteCodec ⟨out, none⟩ =
        (.ok (), ⟨out ++ bytes, none⟩)) ∧
      ∀ rest, VerifyingKey.read byteCodec byteCodec (bytes ++ rest) = some (.error (.invalidData "point at infinity"))) ∧
    (∃ bytes, (∀ out, (⟨byteKey, [9], [1, 1], [], [3, 4], [0]⟩ : Parameters UInt8 UInt8).write byteCodec byteCodec ⟨out, none⟩ =
        (.ok (), ⟨out ++ bytes, none⟩)) ∧
      ∀ rest, Parameters.read byteCodec byteCodec true (bytes ++ rest) = some (.error (.invalidData "point at infinity"))) :=
  ⟨C38_proof_identity _ _ _ ⟨by decide, by decide, by decide⟩ (by decide),
   C38_vk_identity _ _ _ ⟨by decide, by decide, by decide, by decide, by decide, by decide, by decide⟩ (by decide) (by decide),
   C38_parameters_identity _ _ true _ byteKey_valid (fun _ => ⟨by decide, by decide, by decide, by decide, by decide⟩) (by decide) (by decide)
    (by decide)⟩

/-- `C38_proof_cut`, `C38_vk_cut` and the `_canonical` and `_accepted` theorems apply to these byte strings. -/
example : Proof.read byteCodec byteCodec [1, 2, 3] = some (.ok (⟨1, 2, 3⟩, [])) ∧
    VerifyingKey.read byteCodec byteCodec [2, 2, 3, 3, 4, 4, 0, 0, 5, 5, 6, 6, 0, 0, 0, 2, 7, 7, 8, 8] = some (.ok (byteKey, [])) ∧
    (∀ n < 3, Proof.read byteCodec byteCodec ([1, 2, 3].take n) = some (.error .unexpectedEof)) := by
  have h : Proof.read byteCodec byteCodec [1, 2, 3] = some (.ok (⟨1, 2, 3⟩, [])) := rfl
  exact ⟨h, by decide, fun n hn => (C38_proof_cut _ _ _ _ h n hn).1⟩

/-- `C38_parameters_cut` and `C37_unchecked` apply to these bytes. -/
example : Parameters.read byteCodec byteCodec true ([2, 2, 3, 3, 4, 4, 0, 0, 5, 5, 6, 6, 0, 0, 0, 2, 7, 7, 8, 8] ++
    [0, 0, 0, 1, 9, 9] ++ [0, 0, 0, 0] ++ [0, 0, 0, 0] ++ [0, 0, 0, 2, 3, 3, 4, 4] ++ [0, 0, 0, 0]) =
      some (.ok (⟨byteKey, [9], [], [], [3, 4], []⟩, [])) := by decide

end Bellman

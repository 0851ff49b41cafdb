import Verif.Spec.Encoding
import Mathlib.Data.List.Basic
import Mathlib.Tactic.Ring

/-!
# Readers and writers implement the byte formats
-/

namespace Bellman

set_option linter.unusedSectionVars false

/-! ## Writers -/

theorem writeAll_andThen (a b : List UInt8) : (writeAll a).andThen (writeAll b) = writeAll (a ++ b) := by
  funext w
  obtain ⟨out, room⟩ := w
  unfold WriteM.andThen writeAll
  cases room with
  | none => simp
  | some n =>
    by_cases h : a.length ≤ n
    · simp only [h, if_true]
      by_cases h' : b.length ≤ n - a.length
      · simp only [h', if_true, List.length_append]
        rw [if_pos (by omega)]
        simp [Nat.sub_sub]
      · simp only [h', if_false, List.length_append]
        rw [if_neg (by omega)]
        simp [List.take_append, List.take_of_length_le h]
    · simp only [h, if_false, List.length_append]
      rw [if_neg (by omega)]
      rw [List.take_append_of_le_length (by omega)]

theorem writeOk_eq : WriteM.ok = writeAll [] := by
  funext w
  obtain ⟨out, room⟩ := w
  unfold WriteM.ok writeAll
  cases room <;> simp

theorem writeU32_eq (x : ℕ) : writeU32 x = writeAll (be32 x) := by
  unfold writeU32 be32
  have h1 : (UInt32.ofNat x >>> 24).toUInt8 = UInt8.ofNat (x / 2 ^ 24) := by
    apply UInt8.toNat_inj.1; simp [Nat.shiftRight_eq_div_pow]; omega
  have h2 : (UInt32.ofNat x >>> 16).toUInt8 = UInt8.ofNat (x / 2 ^ 16) := by
    apply UInt8.toNat_inj.1; simp [Nat.shiftRight_eq_div_pow]; omega
  have h3 : (UInt32.ofNat x >>> 8).toUInt8 = UInt8.ofNat (x / 2 ^ 8) := by
    apply UInt8.toNat_inj.1; simp [Nat.shiftRight_eq_div_pow]; omega
  have h4 : (UInt32.ofNat x).toUInt8 = UInt8.ofNat x := by
    apply UInt8.toNat_inj.1; simp
  simp only [h1, h2, h3, h4]

theorem writeEach_eq {α : Type} (f : α → List UInt8) (xs : List α) : writeEach f xs = writeAll (xs.flatMap f) := by
  induction xs with
  | nil => exact writeOk_eq
  | cons x xs ih => rw [writeEach, ih, writeAll_andThen, List.flatMap_cons]

variable {G1 G2 : Type}

theorem writeVec_eq {G : Type} (c : PointCodec G) (v : List G) : writeVec c v = writeAll (vecEncoding c v) := by
  rw [writeVec, writeU32_eq, writeEach_eq, writeAll_andThen, vecEncoding]

theorem Proof.write_eq (c1 : PointCodec G1) (c2 : PointCodec G2) (p : Proof G1 G2) :
    p.write c1 c2 = writeAll (p.encoding c1 c2) := by
  rw [Proof.write, writeOk_eq]
  simp only [writeAll_andThen, List.append_nil, Proof.encoding, List.append_assoc]

theorem VerifyingKey.write_eq (c1 : PointCodec G1) (c2 : PointCodec G2) (vk : VerifyingKey G1 G2) :
    vk.write c1 c2 = writeAll (vk.encoding c1 c2) := by
  rw [VerifyingKey.write, writeOk_eq, writeU32_eq, writeEach_eq]
  simp only [writeAll_andThen, List.append_nil, VerifyingKey.encoding, vecEncoding, List.append_assoc]

theorem Parameters.write_eq (c1 : PointCodec G1) (c2 : PointCodec G2) (p : Parameters G1 G2) :
    p.write c1 c2 = writeAll (p.encoding c1 c2) := by
  rw [Parameters.write, writeOk_eq, VerifyingKey.write_eq]
  simp only [writeVec_eq, writeAll_andThen, List.append_nil, Parameters.encoding, List.append_assoc]

/-! ## Readers -/

/-- `m` reads exactly the bytes `used` and returns `x`; on a proper prefix of them it fails at the end of the input. -/
structure Parses {α : Type} (m : ReadM α) (used : List UInt8) (x : α) : Prop where
  full : ∀ rest, m (used ++ rest) = some (.ok (x, rest))
  cut : ∀ pre, pre <+: used → pre ≠ used → m pre = some (.error .unexpectedEof)

theorem Parses.ok {α : Type} (x : α) : Parses (ReadM.ok x) [] x where
  full _ := rfl
  cut pre h hne := absurd (List.prefix_nil.1 h) hne

theorem prefix_append_cases {α : Type} {pre u v : List α} (h : pre <+: u ++ v) : pre <+: u ∨ ∃ w, pre = u ++ w ∧ w <+: v := by
  rcases Nat.le_total pre.length u.length with hl | hl
  · exact .inl (List.prefix_of_prefix_length_le h (List.prefix_append u v) hl)
  · obtain ⟨w, rfl⟩ := List.prefix_of_prefix_length_le (List.prefix_append u v) h hl
    exact .inr ⟨w, rfl, (List.prefix_append_right_inj u).1 h⟩

theorem Parses.bind {α β : Type} {m : ReadM α} {f : α → ReadM β} {u v : List UInt8} {x : α} {y : β} (hm : Parses m u x)
    (hf : Parses (f x) v y) : Parses (m >>= f) (u ++ v) y where
  full rest := by
    show ReadM.bind m f _ = _
    unfold ReadM.bind
    rw [List.append_assoc, hm.full]
    exact hf.full rest
  cut pre h hne := by
    show ReadM.bind m f _ = _
    unfold ReadM.bind
    rcases prefix_append_cases h with h | ⟨w, rfl, hw⟩
    · by_cases he : pre = u
      · subst he
        have := hm.full []
        rw [List.append_nil] at this
        rw [this]
        refine hf.cut [] (List.nil_prefix) ?_
        intro hv
        exact hne (by rw [← hv, List.append_nil])
      · rw [hm.cut pre h he]
    · rw [hm.full]
      refine hf.cut w hw ?_
      rintro rfl
      exact hne rfl

theorem Parses.exact (bs : List UInt8) (n : ℕ) (h : bs.length = n) : Parses (readExact n) bs bs where
  full rest := by
    unfold readExact
    rw [if_pos (by simp; omega), ← h, List.take_left, List.drop_left]
  cut pre hp hne := by
    unfold readExact
    have : pre.length < bs.length := by
      have := hp.length_le
      rcases Nat.lt_or_ge pre.length bs.length with h | h
      · exact h
      · exact absurd (hp.eq_of_length (by omega)) hne
    rw [if_neg (by omega)]

theorem be32_length (n : ℕ) : (be32 n).length = 4 := rfl

theorem ofBE32_be32 (n : ℕ) : ofBE32 (be32 n) = some (n % 2 ^ 32) := by
  unfold be32 ofBE32
  simp only [UInt8.toNat_ofNat']
  congr 1
  omega

theorem be32_ofBE32 (bs : List UInt8) (n : ℕ) (h : ofBE32 bs = some n) : be32 n = bs ∧ n < 2 ^ 32 := by
  match bs, h with
  | [a, b, c, d], h =>
    simp only [ofBE32, Option.some.injEq] at h
    have ha := a.toNat_lt; have hb := b.toNat_lt; have hc := c.toNat_lt; have hd := d.toNat_lt
    constructor
    · unfold be32
      have e1 : UInt8.ofNat (n / 2 ^ 24) = a := by apply UInt8.toNat_inj.1; rw [UInt8.toNat_ofNat']; omega
      have e2 : UInt8.ofNat (n / 2 ^ 16) = b := by apply UInt8.toNat_inj.1; rw [UInt8.toNat_ofNat']; omega
      have e3 : UInt8.ofNat (n / 2 ^ 8) = c := by apply UInt8.toNat_inj.1; rw [UInt8.toNat_ofNat']; omega
      have e4 : UInt8.ofNat n = d := by apply UInt8.toNat_inj.1; rw [UInt8.toNat_ofNat']; omega
      rw [e1, e2, e3, e4]
    · omega

theorem Parses.u32 (n : ℕ) : Parses readU32 (be32 n) (n % 2 ^ 32) := by
  unfold readU32
  rw [← List.append_nil (be32 n)]
  refine (Parses.exact (be32 n) 4 rfl).bind ?_
  rw [ofBE32_be32]
  exact Parses.ok _

theorem Parses.readN {α : Type} {m : ReadM α} {f : α → List UInt8} (xs : List α) (h : ∀ x ∈ xs, Parses m (f x) x) :
    Parses (readN m xs.length) (xs.flatMap f) xs := by
  induction xs with
  | nil => exact Parses.ok []
  | cons x xs ih =>
    rw [List.flatMap_cons]
    refine (h x (by simp)).bind ?_
    rw [← List.append_nil (xs.flatMap f)]
    exact (ih fun y hy => h y (by simp [hy])).bind (Parses.ok _)

theorem unwrapOr_some {α : Type} (x : α) (msg : String) : unwrapOr (some x) msg = ReadM.ok x := rfl

theorem refuseIdentity_ok {G : Type} [Zero G] [DecidableEq G] (g : G) (h : g ≠ 0) : refuseIdentity g = ReadM.ok g := if_neg h

section points

variable {G : Type} [Zero G] [DecidableEq G] (c : PointCodec G)

theorem Proof.readPoint_parses (msg : String) (g : G) (hv : c.Valid g) (h0 : g ≠ 0) :
    Parses (Proof.readPoint c msg) (c.toBytes g) g := by
  unfold Proof.readPoint
  rw [← List.append_nil (c.toBytes g)]
  refine (Parses.exact _ _ (c.toBytes_length g)).bind ?_
  simp only [c.fromBytes_toBytes g hv, unwrapOr_some]
  exact (Parses.ok g).bind (u := []) (v := []) (by rw [refuseIdentity_ok g h0]; exact Parses.ok g)

theorem VerifyingKey.readPoint_parses (msg : String) (g : G) (hv : c.Valid g) :
    Parses (VerifyingKey.readPoint c msg) (c.toUncompressed g) g := by
  unfold VerifyingKey.readPoint
  rw [← List.append_nil (c.toUncompressed g)]
  refine (Parses.exact _ _ (c.toUncompressed_length g)).bind ?_
  simp only [c.fromUncompressed_toUncompressed g hv, unwrapOr_some]
  exact Parses.ok g

theorem VerifyingKey.readPoint_parses' (msg : String) (g : G) (hv : c.Valid g) (h0 : g ≠ 0) :
    Parses (do let e ← VerifyingKey.readPoint c msg; refuseIdentity e) (c.toUncompressed g) g := by
  rw [← List.append_nil (c.toUncompressed g)]
  refine (VerifyingKey.readPoint_parses c msg g hv).bind ?_
  rw [refuseIdentity_ok g h0]; exact Parses.ok g

theorem Parameters.readPoint_parses (msg : String) (checked : Bool) (g : G) (hv : checked = true → c.Valid g) (h0 : g ≠ 0) :
    Parses (Parameters.readPoint c msg checked) (c.toUncompressed g) g := by
  unfold Parameters.readPoint
  rw [← List.append_nil (c.toUncompressed g)]
  refine (Parses.exact _ _ (c.toUncompressed_length g)).bind ?_
  have : (if checked = true then c.fromUncompressed (c.toUncompressed g) else c.fromUncompressedUnchecked (c.toUncompressed g)) = some g := by
    cases checked with
    | true => exact c.fromUncompressed_toUncompressed g (hv rfl)
    | false => exact c.unchecked_toUncompressed g
  simp only [this, unwrapOr_some]
  exact (Parses.ok g).bind (u := []) (v := []) (by rw [refuseIdentity_ok g h0]; exact Parses.ok g)

theorem readVec_parses {m : ReadM G} (v : List G) (h : ∀ g ∈ v, Parses m (c.toUncompressed g) g) (hl : v.length < 2 ^ 32) :
    Parses (readVec m) (vecEncoding c v) v := by
  unfold readVec vecEncoding
  refine (Parses.u32 v.length).bind ?_
  rw [Nat.mod_eq_of_lt hl]
  exact Parses.readN v h

end points

variable [Zero G1] [Zero G2] [DecidableEq G1] [DecidableEq G2]

theorem Proof.read_parses (c1 : PointCodec G1) (c2 : PointCodec G2) (p : Proof G1 G2) (hv : p.Valid c1 c2) (ha : p.a ≠ 0) (hb : p.b ≠ 0)
    (hc : p.c ≠ 0) : Parses (Proof.read c1 c2) (p.encoding c1 c2) p := by
  unfold Proof.read Proof.encoding
  rw [List.append_assoc, ← List.append_nil (c1.toBytes p.c)]
  refine (Proof.readPoint_parses c1 _ _ hv.a ha).bind ?_
  refine (Proof.readPoint_parses c2 _ _ hv.b hb).bind ?_
  exact (Proof.readPoint_parses c1 _ _ hv.c hc).bind (Parses.ok _)

theorem VerifyingKey.read_parses (c1 : PointCodec G1) (c2 : PointCodec G2) (vk : VerifyingKey G1 G2) (hv : vk.Valid c1 c2)
    (hic : Storable vk.ic) : Parses (VerifyingKey.read c1 c2) (vk.encoding c1 c2) vk := by
  unfold VerifyingKey.read VerifyingKey.encoding vecEncoding
  simp only [List.append_assoc]
  refine (VerifyingKey.readPoint_parses c1 _ _ hv.alphaG1).bind ?_
  refine (VerifyingKey.readPoint_parses c1 _ _ hv.betaG1).bind ?_
  refine (VerifyingKey.readPoint_parses c2 _ _ hv.betaG2).bind ?_
  refine (VerifyingKey.readPoint_parses c2 _ _ hv.gammaG2).bind ?_
  refine (VerifyingKey.readPoint_parses c1 _ _ hv.deltaG1).bind ?_
  refine (VerifyingKey.readPoint_parses c2 _ _ hv.deltaG2).bind ?_
  refine (Parses.u32 vk.ic.length).bind ?_
  rw [Nat.mod_eq_of_lt hic.len, ← List.append_nil (vk.ic.flatMap _)]
  exact (Parses.readN vk.ic fun g hg => VerifyingKey.readPoint_parses' c1 _ g (hv.ic g hg) (hic.nonzero g hg)).bind (Parses.ok _)

theorem Parameters.read_parses (c1 : PointCodec G1) (c2 : PointCodec G2) (checked : Bool) (p : Parameters G1 G2) (hk : p.vk.Valid c1 c2)
    (hv : checked = true → p.Valid c1 c2) (hic : Storable p.vk.ic) (hh : Storable p.h) (hl : Storable p.l) (ha : Storable p.a)
    (hb1 : Storable p.bG1) (hb2 : Storable p.bG2) : Parses (Parameters.read c1 c2 checked) (p.encoding c1 c2) p := by
  unfold Parameters.read Parameters.encoding
  rw [← List.append_nil (vecEncoding c2 p.bG2)]
  simp only [List.append_assoc]
  refine (VerifyingKey.read_parses c1 c2 p.vk hk hic).bind ?_
  refine (readVec_parses c1 p.h (fun g hg => Parameters.readPoint_parses c1 _ _ g (fun h => (hv h).h g hg) (hh.nonzero g hg)) hh.len).bind ?_
  refine (readVec_parses c1 p.l (fun g hg => Parameters.readPoint_parses c1 _ _ g (fun h => (hv h).l g hg) (hl.nonzero g hg)) hl.len).bind ?_
  refine (readVec_parses c1 p.a (fun g hg => Parameters.readPoint_parses c1 _ _ g (fun h => (hv h).a g hg) (ha.nonzero g hg)) ha.len).bind ?_
  refine (readVec_parses c1 p.bG1 (fun g hg => Parameters.readPoint_parses c1 _ _ g (fun h => (hv h).bG1 g hg) (hb1.nonzero g hg)) hb1.len).bind ?_
  exact (readVec_parses c2 p.bG2 (fun g hg => Parameters.readPoint_parses c2 _ _ g (fun h => (hv h).bG2 g hg) (hb2.nonzero g hg)) hb2.len).bind
    (Parses.ok _)

/-! ## What readers accept -/

/-- Whatever `m` accepts satisfies `P` together with the bytes consumed; `m` never panics. -/
structure Accepting {α : Type} (m : ReadM α) (P : α → List UInt8 → Prop) : Prop where
  ok : ∀ bs x rest, m bs = some (.ok (x, rest)) → ∃ used, bs = used ++ rest ∧ P x used
  total : ∀ bs, m bs ≠ none

theorem Accepting.mono {α : Type} {m : ReadM α} {P Q : α → List UInt8 → Prop} (h : Accepting m P) (hPQ : ∀ x u, P x u → Q x u) :
    Accepting m Q where
  ok bs x rest e := by
    obtain ⟨u, h1, h2⟩ := h.ok bs x rest e
    exact ⟨u, h1, hPQ x u h2⟩
  total := h.total

theorem Accepting.pure {α : Type} (x : α) : Accepting (ReadM.ok x) (fun y u => y = x ∧ u = []) where
  ok bs y rest e := by
    simp only [ReadM.ok, Option.some.injEq, Except.ok.injEq, Prod.mk.injEq] at e
    exact ⟨[], by simp [e.2], e.1.symm, rfl⟩
  total bs := by simp [ReadM.ok]

theorem Accepting.bind {α β : Type} {m : ReadM α} {f : α → ReadM β} {P : α → List UInt8 → Prop} {Q : α → β → List UInt8 → Prop}
    (hm : Accepting m P) (hf : ∀ x u, P x u → Accepting (f x) (Q x)) :
    Accepting (m >>= f) (fun y w => ∃ x u v, w = u ++ v ∧ P x u ∧ Q x y v) where
  ok bs y rest e := by
    change ReadM.bind m f bs = _ at e
    unfold ReadM.bind at e
    rcases h : m bs with _ | (_ | ⟨x, r⟩)
    · rw [h] at e; cases e
    · rw [h] at e; cases e
    · rw [h] at e
      obtain ⟨u, rfl, hu⟩ := hm.ok bs x r h
      obtain ⟨v, rfl, hv⟩ := (hf x u hu).ok r y rest e
      exact ⟨u ++ v, by rw [List.append_assoc], x, u, v, rfl, hu, hv⟩
  total bs := by
    change ReadM.bind m f bs ≠ none
    unfold ReadM.bind
    rcases h : m bs with _ | (_ | ⟨x, r⟩)
    · exact absurd h (hm.total bs)
    · simp
    · obtain ⟨u, rfl, hu⟩ := hm.ok bs x r h
      exact (hf x u hu).total r

theorem Accepting.exact (n : ℕ) : Accepting (readExact n) (fun x u => u = x ∧ u.length = n) where
  ok bs x rest e := by
    unfold readExact at e
    split at e
    · rename_i h
      simp only [Option.some.injEq, Except.ok.injEq, Prod.mk.injEq] at e
      obtain ⟨rfl, rfl⟩ := e
      exact ⟨_, (List.take_append_drop n bs).symm, rfl, by simp [h]⟩
    · cases e
  total bs := by
    unfold readExact
    split <;> simp

theorem Accepting.u32 : Accepting readU32 (fun n u => u = be32 n ∧ n < 2 ^ 32) := by
  unfold readU32
  refine (Accepting.bind (Q := fun bs n u => u = [] ∧ be32 n = bs ∧ n < 2 ^ 32) (Accepting.exact 4) ?_).mono ?_
  · rintro bs u ⟨rfl, hl⟩
    match u, hl with
    | [a, b, c, d], _ =>
      refine (Accepting.pure _).mono ?_
      rintro n u ⟨rfl, rfl⟩
      exact ⟨rfl, be32_ofBE32 _ _ rfl⟩
  · rintro n w ⟨bs, u, v, rfl, ⟨rfl, _⟩, rfl, h1, h2⟩
    exact ⟨by rw [h1, List.append_nil], h2⟩

theorem Accepting.readN {α : Type} {m : ReadM α} {f : α → List UInt8} {P : α → Prop} (h : Accepting m fun x u => u = f x ∧ P x) (n : ℕ) :
    Accepting (readN m n) (fun xs u => u = xs.flatMap f ∧ xs.length = n ∧ ∀ x ∈ xs, P x) := by
  induction n with
  | zero =>
    refine (Accepting.pure []).mono ?_
    rintro xs u ⟨rfl, rfl⟩
    exact ⟨rfl, rfl, by simp⟩
  | succ n ih =>
    refine (Accepting.bind h (Q := fun x xs u => ∃ ys, xs = x :: ys ∧ u = ys.flatMap f ∧ ys.length = n ∧ ∀ x ∈ ys, P x) ?_).mono ?_
    · rintro x u ⟨rfl, hx⟩
      refine (Accepting.bind ih fun ys v _ => Accepting.pure _).mono ?_
      rintro xs w ⟨ys, u, v, rfl, ⟨rfl, h1, h2⟩, rfl, rfl⟩
      exact ⟨ys, rfl, by rw [List.append_nil], h1, h2⟩
    · rintro xs w ⟨x, u, v, rfl, ⟨rfl, hx⟩, ys, rfl, rfl, h1, h2⟩
      refine ⟨by rw [List.flatMap_cons], by simp [h1], ?_⟩
      intro y hy
      rcases List.mem_cons.1 hy with rfl | hy
      · exact hx
      · exact h2 y hy

theorem Accepting.unwrapOr {α : Type} (o : Option α) (msg : String) : Accepting (unwrapOr o msg) (fun x u => u = [] ∧ o = some x) := by
  cases o with
  | none => exact ⟨fun bs x rest e => (by cases e), fun bs => (by simp [Bellman.unwrapOr, ReadM.err])⟩
  | some y =>
    refine (Accepting.pure y).mono ?_
    rintro x u ⟨rfl, rfl⟩
    exact ⟨rfl, rfl⟩

theorem Accepting.refuse {G : Type} [Zero G] [DecidableEq G] (g : G) : Accepting (refuseIdentity g) (fun x u => u = [] ∧ x = g ∧ g ≠ 0) := by
  unfold refuseIdentity
  split
  · exact ⟨fun bs x rest e => (by cases e), fun bs => (by simp [ReadM.err])⟩
  · rename_i h
    refine (Accepting.pure g).mono ?_
    rintro x u ⟨rfl, rfl⟩
    exact ⟨rfl, rfl, h⟩

section points

variable {G : Type} [Zero G] [DecidableEq G] (c : PointCodec G)

theorem Proof.readPoint_accepting (msg : String) :
    Accepting (Proof.readPoint c msg) (fun g u => u = c.toBytes g ∧ c.Valid g ∧ g ≠ 0) := by
  unfold Proof.readPoint
  refine (Accepting.bind (Accepting.exact c.size) (Q := fun bs g u => u = [] ∧ c.fromBytes bs = some g ∧ g ≠ 0) ?_).mono ?_
  · rintro bs u _
    refine (Accepting.bind (Accepting.unwrapOr _ msg) fun g u _ => Accepting.refuse g).mono ?_
    rintro g w ⟨x, u, v, rfl, ⟨rfl, h1⟩, rfl, rfl, h2⟩
    exact ⟨rfl, h1, h2⟩
  · rintro g w ⟨bs, u, v, rfl, ⟨rfl, hl⟩, rfl, h1, h2⟩
    exact ⟨by rw [List.append_nil, c.toBytes_fromBytes _ _ hl h1], c.fromBytes_valid _ _ h1, h2⟩

theorem VerifyingKey.readPoint_accepting (msg : String) :
    Accepting (VerifyingKey.readPoint c msg) (fun g u => u = c.toUncompressed g ∧ c.Valid g) := by
  unfold VerifyingKey.readPoint
  refine (Accepting.bind (Accepting.exact c.usize) fun bs u _ => Accepting.unwrapOr _ msg).mono ?_
  rintro g w ⟨bs, u, v, rfl, ⟨rfl, hl⟩, rfl, h1⟩
  exact ⟨by rw [List.append_nil, c.toUncompressed_unchecked _ _ hl (c.unchecked_of_checked _ _ h1)], c.fromUncompressed_valid _ _ h1⟩

theorem VerifyingKey.readPoint_accepting' (msg : String) :
    Accepting (do let e ← VerifyingKey.readPoint c msg; refuseIdentity e) (fun g u => u = c.toUncompressed g ∧ c.Valid g ∧ g ≠ 0) := by
  refine (Accepting.bind (VerifyingKey.readPoint_accepting c msg) fun g u _ => Accepting.refuse g).mono ?_
  rintro g w ⟨x, u, v, rfl, ⟨rfl, h1⟩, rfl, rfl, h2⟩
  exact ⟨by rw [List.append_nil], h1, h2⟩

theorem Parameters.readPoint_accepting (msg : String) (checked : Bool) :
    Accepting (Parameters.readPoint c msg checked) (fun g u => u = c.toUncompressed g ∧ (checked = true → c.Valid g) ∧ g ≠ 0) := by
  unfold Parameters.readPoint
  refine (Accepting.bind (Accepting.exact c.usize) (Q := fun bs g u => u = [] ∧
    (if checked = true then c.fromUncompressed bs else c.fromUncompressedUnchecked bs) = some g ∧ g ≠ 0) ?_).mono ?_
  · rintro bs u _
    refine (Accepting.bind (Accepting.unwrapOr _ msg) fun g u _ => Accepting.refuse g).mono ?_
    rintro g w ⟨x, u, v, rfl, ⟨rfl, h1⟩, rfl, rfl, h2⟩
    exact ⟨rfl, h1, h2⟩
  · rintro g w ⟨bs, u, v, rfl, ⟨rfl, hl⟩, rfl, h1, h2⟩
    cases checked with
    | true =>
      simp only [if_true] at h1
      exact ⟨by rw [List.append_nil, c.toUncompressed_unchecked _ _ hl (c.unchecked_of_checked _ _ h1)],
        fun _ => c.fromUncompressed_valid _ _ h1, h2⟩
    | false =>
      exact ⟨by rw [List.append_nil, c.toUncompressed_unchecked _ _ hl h1], fun h => (by cases h), h2⟩

theorem readVec_accepting {m : ReadM G} {P : G → Prop} (h : Accepting m fun g u => u = c.toUncompressed g ∧ P g ∧ g ≠ 0) :
    Accepting (readVec m) (fun v u => u = vecEncoding c v ∧ (∀ g ∈ v, P g) ∧ Storable v) := by
  unfold readVec
  refine (Accepting.bind Accepting.u32 fun n u _ => Accepting.readN h n).mono ?_
  rintro v w ⟨n, u, t, rfl, ⟨rfl, hn⟩, rfl, rfl, h2⟩
  exact ⟨rfl, fun g hg => (h2 g hg).1, ⟨fun g hg => (h2 g hg).2, hn⟩⟩

end points

theorem Proof.read_accepting (c1 : PointCodec G1) (c2 : PointCodec G2) :
    Accepting (Proof.read c1 c2) (fun p u => u = p.encoding c1 c2 ∧ p.Valid c1 c2 ∧ p.a ≠ 0 ∧ p.b ≠ 0 ∧ p.c ≠ 0) := by
  unfold Proof.read
  refine (Accepting.bind (Proof.readPoint_accepting c1 _) fun a u _ => Accepting.bind (Proof.readPoint_accepting c2 _) fun b u _ =>
    Accepting.bind (Proof.readPoint_accepting c1 _) fun c u _ => Accepting.pure _).mono ?_
  rintro p w ⟨a, _, _, rfl, ⟨rfl, a1, a2⟩, b, _, _, rfl, ⟨rfl, b1, b2⟩, c, _, _, rfl, ⟨rfl, c1', c2'⟩, rfl, rfl⟩
  exact ⟨by simp [Proof.encoding], ⟨a1, b1, c1'⟩, a2, b2, c2'⟩

theorem VerifyingKey.read_accepting (c1 : PointCodec G1) (c2 : PointCodec G2) :
    Accepting (VerifyingKey.read c1 c2) (fun vk u => u = vk.encoding c1 c2 ∧ vk.Valid c1 c2 ∧ Storable vk.ic) := by
  unfold VerifyingKey.read
  refine (Accepting.bind (VerifyingKey.readPoint_accepting c1 _) fun a1 u _ =>
    Accepting.bind (VerifyingKey.readPoint_accepting c1 _) fun a2 u _ =>
    Accepting.bind (VerifyingKey.readPoint_accepting c2 _) fun a3 u _ =>
    Accepting.bind (VerifyingKey.readPoint_accepting c2 _) fun a4 u _ =>
    Accepting.bind (VerifyingKey.readPoint_accepting c1 _) fun a5 u _ =>
    Accepting.bind (VerifyingKey.readPoint_accepting c2 _) fun a6 u _ =>
    Accepting.bind Accepting.u32 fun n u _ =>
    Accepting.bind (Accepting.readN (VerifyingKey.readPoint_accepting' c1 _) n) fun ic u _ => Accepting.pure _).mono ?_
  rintro vk w ⟨a1, _, _, rfl, ⟨rfl, h1⟩, a2, _, _, rfl, ⟨rfl, h2⟩, a3, _, _, rfl, ⟨rfl, h3⟩, a4, _, _, rfl, ⟨rfl, h4⟩,
    a5, _, _, rfl, ⟨rfl, h5⟩, a6, _, _, rfl, ⟨rfl, h6⟩, n, _, _, rfl, ⟨rfl, hn⟩, ic, _, _, rfl, ⟨rfl, rfl, hic⟩, rfl, rfl⟩
  exact ⟨by simp [VerifyingKey.encoding, vecEncoding], ⟨h1, h2, h3, h4, h5, h6, fun g hg => (hic g hg).1⟩,
    ⟨fun g hg => (hic g hg).2, hn⟩⟩

theorem Parameters.read_accepting (c1 : PointCodec G1) (c2 : PointCodec G2) (checked : Bool) :
    Accepting (Parameters.read c1 c2 checked) (fun p u => u = p.encoding c1 c2 ∧ p.vk.Valid c1 c2 ∧ (checked = true → p.Valid c1 c2) ∧
      Storable p.vk.ic ∧ Storable p.h ∧ Storable p.l ∧ Storable p.a ∧ Storable p.bG1 ∧ Storable p.bG2) := by
  unfold Parameters.read
  refine (Accepting.bind (VerifyingKey.read_accepting c1 c2) fun vk u _ =>
    Accepting.bind (readVec_accepting c1 (Parameters.readPoint_accepting c1 _ checked)) fun h u _ =>
    Accepting.bind (readVec_accepting c1 (Parameters.readPoint_accepting c1 _ checked)) fun l u _ =>
    Accepting.bind (readVec_accepting c1 (Parameters.readPoint_accepting c1 _ checked)) fun a u _ =>
    Accepting.bind (readVec_accepting c1 (Parameters.readPoint_accepting c1 _ checked)) fun b1 u _ =>
    Accepting.bind (readVec_accepting c2 (Parameters.readPoint_accepting c2 _ checked)) fun b2 u _ => Accepting.pure _).mono ?_
  rintro p w ⟨vk, _, _, rfl, ⟨rfl, k1, k2⟩, h, _, _, rfl, ⟨rfl, h1, h2⟩, l, _, _, rfl, ⟨rfl, l1, l2⟩, a, _, _, rfl, ⟨rfl, a1, a2⟩,
    b1, _, _, rfl, ⟨rfl, b11, b12⟩, b2, _, _, rfl, ⟨rfl, b21, b22⟩, rfl, rfl⟩
  exact ⟨by simp [Parameters.encoding], k1, fun hc => ⟨fun g hg => h1 g hg hc, fun g hg => l1 g hg hc, fun g hg => a1 g hg hc,
    fun g hg => b11 g hg hc, fun g hg => b21 g hg hc⟩, k2, h2, l2, a2, b12, b22⟩

/-! ## The identity -/

/-- `m` fails with `e` on every input that begins with `used`. -/
def ReadFails {α : Type} (m : ReadM α) (used : List UInt8) (e : IoError) : Prop := ∀ rest, m (used ++ rest) = some (.error e)

theorem ReadFails.bind {α β : Type} {m : ReadM α} {u : List UInt8} {e : IoError} (h : ReadFails m u e) (f : α → ReadM β) (v : List UInt8) :
    ReadFails (m >>= f) (u ++ v) e := by
  intro rest
  show ReadM.bind m f _ = _
  unfold ReadM.bind
  rw [List.append_assoc, h]

theorem Parses.readFails {α β : Type} {m : ReadM α} {f : α → ReadM β} {u v : List UInt8} {x : α} {e : IoError} (hm : Parses m u x)
    (hf : ReadFails (f x) v e) : ReadFails (m >>= f) (u ++ v) e := by
  intro rest
  show ReadM.bind m f _ = _
  unfold ReadM.bind
  rw [List.append_assoc, hm.full]
  exact hf rest

theorem refuseIdentity_fails {G : Type} [Zero G] [DecidableEq G] :
    ReadFails (refuseIdentity (0 : G)) [] (.invalidData "point at infinity") := fun rest => by
  simp [refuseIdentity, ReadM.err]

section points

variable {G : Type} [Zero G] [DecidableEq G] (c : PointCodec G)

theorem Proof.readPoint_fails (msg : String) (hv : c.Valid 0) :
    ReadFails (Proof.readPoint c msg) (c.toBytes 0) (.invalidData "point at infinity") := by
  unfold Proof.readPoint
  rw [← List.append_nil (c.toBytes 0)]
  refine (Parses.exact _ _ (c.toBytes_length 0)).readFails ?_
  simp only [c.fromBytes_toBytes 0 hv, unwrapOr_some]
  exact (Parses.ok (0 : G)).readFails (u := []) (v := []) refuseIdentity_fails

theorem VerifyingKey.readPoint_fails (msg : String) (hv : c.Valid 0) :
    ReadFails (do let e ← VerifyingKey.readPoint c msg; refuseIdentity e) (c.toUncompressed 0) (.invalidData "point at infinity") := by
  rw [← List.append_nil (c.toUncompressed 0)]
  exact (VerifyingKey.readPoint_parses c msg 0 hv).readFails refuseIdentity_fails

theorem Parameters.readPoint_fails (msg : String) (checked : Bool) (hv : checked = true → c.Valid 0) :
    ReadFails (Parameters.readPoint c msg checked) (c.toUncompressed 0) (.invalidData "point at infinity") := by
  unfold Parameters.readPoint
  rw [← List.append_nil (c.toUncompressed 0)]
  refine (Parses.exact _ _ (c.toUncompressed_length 0)).readFails ?_
  have : (if checked = true then c.fromUncompressed (c.toUncompressed 0) else c.fromUncompressedUnchecked (c.toUncompressed 0)) =
      some (0 : G) := by
    cases checked with
    | true => exact c.fromUncompressed_toUncompressed 0 (hv rfl)
    | false => exact c.unchecked_toUncompressed 0
  simp only [this, unwrapOr_some]
  exact (Parses.ok (0 : G)).readFails (u := []) (v := []) refuseIdentity_fails

theorem readN_fails {m : ReadM G} {f : G → List UInt8} {e : IoError} (xs : List G) (h : ∀ x ∈ xs, x ≠ 0 → Parses m (f x) x)
    (h0 : (0 : G) ∈ xs → ReadFails m (f 0) e) (hz : (0 : G) ∈ xs) : ReadFails (readN m xs.length) (xs.flatMap f) e := by
  induction xs with
  | nil => simp at hz
  | cons x xs ih =>
    rw [List.flatMap_cons]
    by_cases hx : x = 0
    · subst hx
      exact (h0 hz).bind _ _
    · refine (h x (by simp) hx).readFails ?_
      rw [← List.append_nil (xs.flatMap f)]
      refine (ih (fun y hy => h y (by simp [hy])) (fun _ => h0 hz) ?_).bind _ _
      rcases List.mem_cons.1 hz with h' | h'
      · exact absurd h'.symm hx
      · exact h'

theorem readVec_fails {m : ReadM G} {e : IoError} (v : List G) (h : ∀ g ∈ v, g ≠ 0 → Parses m (c.toUncompressed g) g)
    (h0 : (0 : G) ∈ v → ReadFails m (c.toUncompressed 0) e) (hz : (0 : G) ∈ v) (hl : v.length < 2 ^ 32) :
    ReadFails (readVec m) (vecEncoding c v) e := by
  unfold readVec vecEncoding
  refine (Parses.u32 v.length).readFails ?_
  rw [Nat.mod_eq_of_lt hl]
  exact readN_fails v h h0 hz

end points

theorem VerifyingKey.read_fails (c1 : PointCodec G1) (c2 : PointCodec G2) (vk : VerifyingKey G1 G2) (hv : vk.Valid c1 c2)
    (hl : vk.ic.length < 2 ^ 32) (hz : (0 : G1) ∈ vk.ic) :
    ReadFails (VerifyingKey.read c1 c2) (vk.encoding c1 c2) (.invalidData "point at infinity") := by
  unfold VerifyingKey.read VerifyingKey.encoding vecEncoding
  simp only [List.append_assoc]
  refine (VerifyingKey.readPoint_parses c1 _ _ hv.alphaG1).readFails ?_
  refine (VerifyingKey.readPoint_parses c1 _ _ hv.betaG1).readFails ?_
  refine (VerifyingKey.readPoint_parses c2 _ _ hv.betaG2).readFails ?_
  refine (VerifyingKey.readPoint_parses c2 _ _ hv.gammaG2).readFails ?_
  refine (VerifyingKey.readPoint_parses c1 _ _ hv.deltaG1).readFails ?_
  refine (VerifyingKey.readPoint_parses c2 _ _ hv.deltaG2).readFails ?_
  refine (Parses.u32 vk.ic.length).readFails ?_
  rw [Nat.mod_eq_of_lt hl, ← List.append_nil (vk.ic.flatMap _)]
  exact (readN_fails vk.ic (fun g hg h0 => VerifyingKey.readPoint_parses' c1 _ g (hv.ic g hg) h0)
    (fun h => VerifyingKey.readPoint_fails c1 _ (hv.ic 0 h)) hz).bind _ _

end Bellman

import Verif.Gadgets.Blake2s

/-!
# Counting constraints without running the circuit

An abstract interpreter for the hash gadgets.  It knows of every bit only whether it is a constant (and which, or unknown) or not, and
counts the auxiliary variables and the constraints.  It is proof machinery, not part of the model: `Proofs/Cost.lean` shows that it is
right about the model.  It gives up (`none`) where the number of constraints depends on constants it does not know.
-/

namespace Bellman.Cost

/-- What is known of a bit. Abstracts src/gadgets/boolean.rs:358-368. -/
inductive AB where
  | var
  | c (b : Bool)
  | any
deriving DecidableEq

/-- What is known of a word: a given constant (`UInt32.constant v`), some constant, or 32 bits.
Abstracts src/gadgets/uint32.rs:17-21. -/
inductive AW where
  | lit (v : BitVec 32)
  | con
  | mix (l : List AB)
deriving DecidableEq

/-- Gates (each allocates one variable and makes one constraint), further constraints, and the bits used in the open `MultiEq`.
Model device, no counterpart in the code. -/
structure St where
  g : ℕ
  m : ℕ
  u : ℕ
deriving DecidableEq

/-- Counting programs. Model device, no counterpart in the code. -/
abbrev AM := StateT St Option

/-- `n` gates. Model device, no counterpart in the code. -/
def tick (n : ℕ) : AM Unit := fun s => some ((), ⟨s.g + n, s.m, s.u⟩)

/-- Give up. Model device, no counterpart in the code. -/
def fail {α : Type} : AM α := fun _ => none

/-- `Boolean::not`. src/gadgets/boolean.rs:455-461. -/
def AB.neg : AB → AB
  | .c b => .c (!b)
  | x => x

/-- `Boolean::xor`. src/gadgets/boolean.rs:464-483. -/
def xorB : AB → AB → AM AB
  | .var, .var => do tick 1; pure .var
  | .var, _ | _, .var => pure .var
  | .c a, .c b => pure (.c (a ^^ b))
  | _, _ => pure .any

/-- `Boolean::and`. src/gadgets/boolean.rs:486-512. -/
def andB : AB → AB → AM AB
  | .c false, _ | _, .c false => pure (.c false)
  | .c true, x | x, .c true => pure x
  | .any, .any => pure .any
  | .var, .var => do tick 1; pure .var
  | _, _ => fail

/-- `Boolean::sha256_ch`. src/gadgets/boolean.rs:515-619. -/
def chB : AB → AB → AB → AM AB
  | .var, .var, .var => do tick 1; pure .var
  | .any, _, _ | _, .any, _ | _, _, .any => fail
  | .c false, _, c => pure c
  | .c true, .c b, .c _ => pure (.c b)
  | a, .c false, c => andB a.neg c
  | a, b, .c false => andB a b
  | a, b, .c true => do let r ← andB a b.neg; pure r.neg
  | a, .c true, c => do let r ← andB a.neg c.neg; pure r.neg
  | .c true, .var, .var => do tick 1; pure .var

/-- `Boolean::sha256_maj`. src/gadgets/boolean.rs:622-743. -/
def majB : AB → AB → AB → AM AB
  | .var, .var, .var => do tick 2; pure .var
  | .any, _, _ | _, .any, _ | _, _, .any => fail
  | .c false, b, c => andB b c
  | a, .c false, c => andB a c
  | a, b, .c false => andB a b
  | .c true, .c true, .c true => pure (.c true)
  | a, b, .c true => do let r ← andB a.neg b.neg; pure r.neg
  | a, .c true, c => do let r ← andB a.neg c.neg; pure r.neg
  | .c true, b, c => do let r ← andB b.neg c.neg; pure r.neg

/-- The bits of a word. src/gadgets/uint32.rs:17-21. -/
def AW.bits : AW → List AB
  | .lit v => (shiftBits 32 v).map .c
  | .con => List.replicate 32 .any
  | .mix l => l

/-- `UInt32::rotr`. src/gadgets/uint32.rs:166-182. -/
def AW.rotr (w : AW) (k : ℕ) : AW :=
  match w with
  | .lit v => .lit (v.rotateRight (k % 32))
  | .con => .con
  | .mix l => .mix ((l.drop (k % 32) ++ l).take 32)

/-- `UInt32::shr`. src/gadgets/uint32.rs:184-202. -/
def AW.shr (w : AW) (k : ℕ) : AW :=
  match w with
  | .lit v => .lit (v >>> (k % 32))
  | .con => .con
  | .mix l => .mix ((l.drop (k % 32) ++ List.replicate 32 (AB.c false)).take 32)

/-- The loop of `UInt32::xor`. src/gadgets/uint32.rs:293-299. -/
def xorL : List AB → List AB → AM (List AB)
  | a :: as, b :: bs => do
    let r ← xorB a b
    let rs ← xorL as bs
    pure (r :: rs)
  | _, _ => pure []

/-- The loop of `UInt32::triop`. src/gadgets/uint32.rs:223-230. -/
def triL (f : AB → AB → AB → AM AB) : List AB → List AB → List AB → AM (List AB)
  | a :: as, b :: bs, c :: cs => do
    let r ← f a b c
    let rs ← triL f as bs cs
    pure (r :: rs)
  | _, _, _ => pure []

/-- `UInt32::xor`. src/gadgets/uint32.rs:283-305. -/
def xorW : AW → AW → AM AW
  | .lit a, .lit b => pure (.lit (a ^^^ b))
  | .lit _, .con | .con, .lit _ | .con, .con => pure .con
  | a, b => do pure (.mix (← xorL a.bits b.bits))

/-- `UInt32::triop`. src/gadgets/uint32.rs:204-236. -/
def triW (f : AB → AB → AB → AM AB) (g : BitVec 32 → BitVec 32 → BitVec 32 → BitVec 32) : AW → AW → AW → AM AW
  | .lit a, .lit b, .lit c => pure (.lit (g a b c))
  | .lit _, .lit _, .con | .lit _, .con, .lit _ | .lit _, .con, .con | .con, .lit _, .lit _ | .con, .lit _, .con | .con, .con, .lit _
  | .con, .con, .con => pure .con
  | a, b, c => do pure (.mix (← triL f a.bits b.bits c.bits))

/-- `UInt32::sha256_ch`. src/gadgets/uint32.rs:262-280. -/
def chW : AW → AW → AW → AM AW := triW chB fun a b c => (a &&& b) ^^^ (~~~a &&& c)

/-- `UInt32::sha256_maj`. src/gadgets/uint32.rs:240-258. -/
def majW : AW → AW → AW → AM AW := triW majB fun a b c => ((a &&& b) ^^^ (a &&& c)) ^^^ (b &&& c)

/-- The sum of given constants. src/gadgets/uint32.rs:326-349. -/
def litSum : List AW → Option (BitVec 32)
  | [] => some 0
  | .lit v :: l => (litSum l).map (v + ·)
  | _ :: _ => none

/-- Only constants. src/gadgets/uint32.rs:351-358. -/
def isCon : AW → Bool
  | .mix _ => false
  | _ => true

/-- Some bit is not a constant. src/gadgets/uint32.rs:351-358. -/
def hasVar : AW → Bool
  | .mix l => l.any (· == .var)
  | _ => false

/-- `MultiEq::enforce_equal` with `n` bits. src/gadgets/multieq.rs:40-57. -/
def enforceEqual (cap n : ℕ) : AM Unit := fun s =>
  if cap ≤ s.u + n then some ((), ⟨s.g, s.m + 1, n⟩) else some ((), ⟨s.g, s.m, s.u + n⟩)

/-- `UInt32::addmany`. src/gadgets/uint32.rs:308-408. -/
def addmany (cap : ℕ) (l : List AW) : AM AW :=
  match litSum l with
  | some v => pure (.lit v)
  | none =>
    if l.all isCon then pure .con
    else if l.any hasVar then do
      let n := Nat.size (l.length * (2 ^ 32 - 1))
      tick n
      enforceEqual cap n
      pure (.mix (List.replicate 32 .var))
    else fail

/-- Indexing. src/gadgets/sha256.rs:94-112, src/gadgets/blake2s.rs:93-112. -/
def index {α : Type} (v : List α) (i : ℕ) : AM α :=
  match v[i]? with
  | some x => pure x
  | none => fail

/-- `let cs = MultiEq::new(cs); ...`. src/gadgets/sha256.rs:100, src/gadgets/blake2s.rs:211. -/
def withMultiEq {α : Type} (a : AM α) : AM α := fun s =>
  match a ⟨s.g, s.m, 0⟩ with
  | some (x, s') => some (x, ⟨s'.g, if s'.u > 0 then s'.m + 1 else s'.m, s.u⟩)
  | none => none

/-- A word from its bits, the least significant first. src/gadgets/uint32.rs:120-164. -/
def wordOf (l : List AB) : AW := if l.all (· != .var) then .con else .mix l

namespace Sha256

/-- `Sha256.wStep`. src/gadgets/sha256.rs:103-121. -/
def wStep (cap i : ℕ) (w : List AW) : AM (List AW) := do
  let w15 ← index w (i - 15)
  let s0 ← xorW (w15.rotr 7) (w15.rotr 18)
  let s0 ← xorW s0 (w15.shr 3)
  let w2 ← index w (i - 2)
  let s1 ← xorW (w2.rotr 17) (w2.rotr 19)
  let s1 ← xorW s1 (w2.shr 10)
  let w16 ← index w (i - 16)
  let w7 ← index w (i - 7)
  let tmp ← addmany cap [w16, s0, w7, s1]
  pure (w ++ [tmp])

/-- `Sha256.wLoop`. src/gadgets/sha256.rs:102-122. -/
def wLoop (cap : ℕ) : ℕ → ℕ → List AW → AM (List AW)
  | 0, _, w => pure w
  | n + 1, i, w => do
    let w ← wStep cap i w
    wLoop cap n (i + 1) w

/-- `Sha256.Maybe`. src/gadgets/sha256.rs:126-129. -/
inductive AMaybe where
  | deferred (v : List AW)
  | concrete (v : AW)

/-- `Maybe.compute`. src/gadgets/sha256.rs:132-145. -/
def AMaybe.compute (cap : ℕ) (m : AMaybe) (others : List AW) : AM AW :=
  match m with
  | .concrete v => pure v
  | .deferred v => addmany cap (v ++ others)

/-- `Sha256.St`. src/gadgets/sha256.rs:148-155. -/
structure ASt where
  a : AMaybe
  b : AW
  c : AW
  d : AW
  e : AMaybe
  f : AW
  g : AW
  h : AW

/-- `Sha256.round`. src/gadgets/sha256.rs:158-214. -/
def round (cap : ℕ) (w : List AW) (i : ℕ) (s : ASt) : AM ASt := do
  let newE ← s.e.compute cap []
  let s1 ← xorW (newE.rotr 6) (newE.rotr 11)
  let s1 ← xorW s1 (newE.rotr 25)
  let ch ← chW newE s.f s.g
  let k ← index Bellman.Sha256.ROUND_CONSTANTS i
  let wi ← index w i
  let temp1 := [s.h, s1, ch, .lit k, wi]
  let newA ← s.a.compute cap []
  let s0 ← xorW (newA.rotr 2) (newA.rotr 13)
  let s0 ← xorW s0 (newA.rotr 22)
  let maj ← majW newA s.b s.c
  let temp2 := [s0, maj]
  pure { h := s.g, g := s.f, f := newE, e := .deferred (temp1 ++ [s.d]),
         d := s.c, c := s.b, b := newA, a := .deferred (temp1 ++ temp2) }

/-- `Sha256.rounds`. src/gadgets/sha256.rs:157-215. -/
def rounds (cap : ℕ) (w : List AW) : ℕ → ℕ → ASt → AM ASt
  | 0, _, s => pure s
  | n + 1, i, s => do
    let s ← round cap w i s
    rounds cap w n (i + 1) s

/-- `Sha256.compressionBody`. src/gadgets/sha256.rs:100-269. -/
def compressionBody (cap : ℕ) (w : List AW) (h0 h1 h2 h3 h4 h5 h6 h7 : AW) : AM (List AW) := do
  let w ← wLoop cap 48 16 w
  let s ← rounds cap w 64 0 ⟨.concrete h0, h1, h2, h3, .concrete h4, h5, h6, h7⟩
  let n0 ← s.a.compute cap [h0]
  let n1 ← addmany cap [h1, s.b]
  let n2 ← addmany cap [h2, s.c]
  let n3 ← addmany cap [h3, s.d]
  let n4 ← s.e.compute cap [h4]
  let n5 ← addmany cap [h5, s.f]
  let n6 ← addmany cap [h6, s.g]
  let n7 ← addmany cap [h7, s.h]
  pure [n0, n1, n2, n3, n4, n5, n6, n7]

/-- `Sha256.compression`, after the division of the block into words. src/gadgets/sha256.rs:81-270. -/
def compression (cap : ℕ) (w cur : List AW) : AM (List AW) :=
  match cur with
  | [h0, h1, h2, h3, h4, h5, h6, h7] => withMultiEq (compressionBody cap w h0 h1 h2 h3 h4 h5 h6 h7)
  | _ => fail

/-- The words of a block. src/gadgets/sha256.rs:93-96. -/
def words (l : List AB) : List AW := (chunksAux 32 l.length l).map fun c => wordOf c.reverse

end Sha256

namespace Blake2s

/-- `Blake2s.mixAdd3`. src/gadgets/blake2s.rs:93-96, 103-106. -/
def mixAdd3 (cap : ℕ) (v : List AW) (a b : ℕ) (x : AW) : AM (List AW) := do
  let va ← index v a
  let vb ← index v b
  let t ← addmany cap [va, vb, x]
  pure (v.set a t)

/-- `Blake2s.mixAdd2`. src/gadgets/blake2s.rs:98-101, 108-111. -/
def mixAdd2 (cap : ℕ) (v : List AW) (c d : ℕ) : AM (List AW) := do
  let vc ← index v c
  let vd ← index v d
  let t ← addmany cap [vc, vd]
  pure (v.set c t)

/-- `Blake2s.mixXor`. src/gadgets/blake2s.rs:97, 102, 107, 112. -/
def mixXor (v : List AW) (d a r : ℕ) : AM (List AW) := do
  let vd ← index v d
  let va ← index v a
  let t ← xorW vd va
  pure (v.set d (t.rotr r))

/-- `Blake2s.mixingG`. src/gadgets/blake2s.rs:82-115. -/
def mixingG (cap : ℕ) (v : List AW) (a b c d : ℕ) (x y : AW) : AM (List AW) := do
  let v ← mixAdd3 cap v a b x
  let v ← mixXor v d a Bellman.Blake2s.R1
  let v ← mixAdd2 cap v c d
  let v ← mixXor v b c Bellman.Blake2s.R2
  let v ← mixAdd3 cap v a b y
  let v ← mixXor v d a Bellman.Blake2s.R3
  let v ← mixAdd2 cap v c d
  mixXor v b c Bellman.Blake2s.R4

/-- `Blake2s.mixCall`. src/gadgets/blake2s.rs:218-274. -/
def mixCall (cap : ℕ) (m : List AW) (s : List ℕ) (j : ℕ) (a b c d : ℕ) (v : List AW) : AM (List AW) := do
  let ix ← index s j
  let x ← index m ix
  let iy ← index s (j + 1)
  let y ← index m iy
  mixingG cap v a b c d x y

/-- `Blake2s.roundBody`. src/gadgets/blake2s.rs:214-274. -/
def roundBody (cap : ℕ) (m : List AW) (i : ℕ) (v : List AW) : AM (List AW) := do
  let s ← index Bellman.Blake2s.SIGMA (i % 10)
  let v ← mixCall cap m s 0 0 4 8 12 v
  let v ← mixCall cap m s 2 1 5 9 13 v
  let v ← mixCall cap m s 4 2 6 10 14 v
  let v ← mixCall cap m s 6 3 7 11 15 v
  let v ← mixCall cap m s 8 0 5 10 15 v
  let v ← mixCall cap m s 10 1 6 11 12 v
  let v ← mixCall cap m s 12 2 7 8 13 v
  mixCall cap m s 14 3 4 9 14 v

/-- `Blake2s.roundLoop`. src/gadgets/blake2s.rs:213-275. -/
def roundLoop (cap : ℕ) (m : List AW) : ℕ → ℕ → List AW → AM (List AW)
  | 0, _, v => pure v
  | n + 1, i, v => do
    let v ← roundBody cap m i v
    roundLoop cap m n (i + 1) v

/-- `Blake2s.finalLoop`. src/gadgets/blake2s.rs:278-283. -/
def finalLoop (v : List AW) : ℕ → ℕ → List AW → AM (List AW)
  | 0, _, h => pure h
  | n + 1, i, h => do
    let hi ← index h i
    let vi ← index v i
    let vi8 ← index v (i + 8)
    let r ← xorW hi vi
    let r ← xorW r vi8
    finalLoop v n (i + 1) (h.set i r)

/-- The constants pushed to `v`. src/gadgets/blake2s.rs:186-193. -/
def ivTail : List AW := [.lit 0x6A09E667, .lit 0xBB67AE85, .lit 0x3C6EF372, .lit 0xA54FF53A, .con, .con, .con, .lit 0x5BE0CD19]

/-- `Blake2s.compression`, for any counter and flag. src/gadgets/blake2s.rs:166-286. -/
def compression (cap : ℕ) (h m : List AW) : AM (List AW) := do
  let v ← withMultiEq (roundLoop cap m 10 0 (h ++ ivTail))
  finalLoop v 8 0 h

end Blake2s

end Bellman.Cost

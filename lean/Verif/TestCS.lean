import Verif.CS

/-!
# Model of `TestConstraintSystem` (src/gadgets/test/mod.rs)
-/

namespace Bellman

/-- src/gadgets/test/mod.rs:19-24 `enum NamedObject`. -/
inductive NamedObject where
  | constraint (i : ℕ)
  | var (v : Var)
  | namespace
deriving DecidableEq, Repr

/-- src/gadgets/test/mod.rs:33-40 `struct TestConstraintSystem`.  The `HashMap` `named_objects` is an association
list (simplified: only `get`, `contains_key` and `insert` of a fresh key are used, so the order is irrelevant);
`current_namespace` has its top at the end as the Rust `Vec`. -/
structure TestCS (F : Type) where
  named : List (String × NamedObject)
  ns : List String
  constraints : List (LC F × LC F × LC F × String)
  inputs : List (F × String)
  aux : List (F × String)

/-- src/gadgets/test/mod.rs:42-69 `impl Eq/Ord for OrderedVariable`: is `a` strictly before `b`? -/
def Var.before : Var → Var → Bool
  | .input a, .input b => a < b
  | .aux a, .aux b => a < b
  | .input _, .aux _ => true
  | .aux _, .input _ => false

/-- `map.entry(OrderedVariable(var)).or_insert(Scalar::ZERO).add_assign(&coeff)` (src/gadgets/test/mod.rs:74-76) on a
`BTreeMap`, modelled as the list of its entries in key order. -/
def entryAdd {F : Type} [PrimeField F] (v : Var) (c : F) : List (Var × F) → List (Var × F)
  | [] => [(v, 0 + c)]
  | (w, d) :: m =>
    if v = w then (w, d + c) :: m
    else if v.before w then (v, 0 + c) :: (w, d) :: m
    else (w, d) :: entryAdd v c m

/-- src/gadgets/test/mod.rs:71-92 `proc_lc`. -/
def procLc {F : Type} [PrimeField F] (terms : List (Var × F)) : List (Var × F) :=
  let map := terms.foldl (fun m t => entryAdd t.1 t.2 m) []
  let toRemove := (map.filter fun e => e.2 = 0).map (·.1)
  toRemove.foldl (fun m v => m.filter fun e => e.1 ≠ v) map

/-- `BigEndian::write_u64` (byteorder): the eight bytes of `n as u64`, most significant first.
Used at src/gadgets/test/mod.rs:98-109, 234-236. -/
def u64be (n : ℕ) : List UInt8 := [56, 48, 40, 32, 24, 16, 8, 0].map fun s => UInt8.ofNat (n >>> s)

/-- src/gadgets/test/mod.rs:94-121 `hash_lc`: the bytes fed to the hash.  `toRepr` is `PrimeField::to_repr` (external).
The `copy_from_slice` into `buf[9..]` panics (`none`) unless the representation has 32 bytes. -/
def hashLcTerms {F : Type} (toRepr : F → List UInt8) : List (Var × F) → Option (List UInt8)
  | [] => some []
  | (v, c) :: m =>
    let head := match v with
      | .input i => 73 :: u64be i
      | .aux i => 65 :: u64be i
    let coeffBe := (toRepr c).reverse
    if coeffBe.length = 32 then (hashLcTerms toRepr m).map fun rest => head ++ coeffBe ++ rest else none

/-- src/gadgets/test/mod.rs:94-121 `hash_lc`. -/
def hashLc {F : Type} [PrimeField F] (toRepr : F → List UInt8) (terms : List (Var × F)) : Option (List UInt8) :=
  let map := procLc terms
  (hashLcTerms toRepr map).map fun rest => u64be map.length ++ rest

/-- src/gadgets/test/mod.rs:123-141 `eval_lc`; indexing out of range panics. -/
def evalLc {F : Type} [PrimeField F] (inputs aux : List (F × String)) : List (Var × F) → F → Option F
  | [], acc => some acc
  | (v, coeff) :: ts, acc =>
    let tmp := match v with
      | .input i => inputs[i]?
      | .aux i => aux[i]?
    tmp.bind fun x => evalLc inputs aux ts (acc + x.1 * coeff)

/-- src/gadgets/test/mod.rs:339-357 `compute_path`: `none` is the panic on `'/'`. -/
def computePath (ns : List String) (this : String) : Option String :=
  if this.toList.any (· == '/') then none
  else some ((ns ++ [this]).foldl
    (fun (st : String × Bool) n => ((if st.2 then st.1 ++ "/" else st.1) ++ n, true)) ("", false)).1

namespace TestCS

variable {F : Type} [PrimeField F]

/-- src/gadgets/test/mod.rs:150-164 `new`. -/
def new : TestCS F := ⟨[("ONE", .var .one)], [], [], [(1, "ONE")], []⟩

/-- src/gadgets/test/mod.rs:330-336 `set_named_obj`; panics on an existing path. -/
def setNamedObj (s : TestCS F) (path : String) (obj : NamedObject) : Option (TestCS F) :=
  match s.named.lookup path with
  | some _ => none
  | none => some { s with named := (path, obj) :: s.named }

/-- src/gadgets/test/mod.rs:362-375 `alloc`. -/
def allocAux (name : String) (f : Except SynthesisError F) (s : TestCS F) :
    Option (Except SynthesisError (Var × Option F) × TestCS F) :=
  let index := s.aux.length
  (computePath s.ns name).bind fun path =>
  match f with
  | .error e => some (.error e, s)
  | .ok v =>
    let var := Var.aux index
    (({ s with aux := s.aux ++ [(v, path)] } : TestCS F).setNamedObj path (.var var)).map fun s =>
      (.ok (var, some v), s)

/-- src/gadgets/test/mod.rs:377-390 `alloc_input`. -/
def allocInput (name : String) (f : Except SynthesisError F) (s : TestCS F) :
    Option (Except SynthesisError (Var × Option F) × TestCS F) :=
  let index := s.inputs.length
  (computePath s.ns name).bind fun path =>
  match f with
  | .error e => some (.error e, s)
  | .ok v =>
    let var := Var.input index
    (({ s with inputs := s.inputs ++ [(v, path)] } : TestCS F).setNamedObj path (.var var)).map fun s =>
      (.ok (var, some v), s)

/-- src/gadgets/test/mod.rs:392-409 `enforce`. -/
def enforce (name : String) (a b c : LC F) (s : TestCS F) : Option (TestCS F) :=
  (computePath s.ns name).bind fun path =>
  let index := s.constraints.length
  (s.setNamedObj path (.constraint index)).map fun s => { s with constraints := s.constraints ++ [(a, b, c, path)] }

/-- src/gadgets/test/mod.rs:411-420 `push_namespace`. -/
def pushNs (name : String) (s : TestCS F) : Option (TestCS F) :=
  (computePath s.ns name).bind fun path =>
  (s.setNamedObj path .namespace).map fun s => { s with ns := s.ns ++ [name] }

/-- src/gadgets/test/mod.rs:422-424 `pop_namespace`. -/
def popNs (s : TestCS F) : Option (TestCS F) :=
  match s.ns.getLast? with
  | none => none
  | some _ => some { s with ns := s.ns.dropLast }

/-- src/gadgets/test/mod.rs:359-429 `impl ConstraintSystem for TestConstraintSystem`. -/
def impl : CSImpl F (TestCS F) where
  alloc i n f s := if i then allocInput n f s else allocAux n f s
  enforce n a b c s := enforce n a b c s
  push n s := pushNs n s
  pop s := popNs s

/-- src/gadgets/test/mod.rs:254-268 `which_is_unsatisfied`, the loop; outer `none` is an index panic. -/
def whichLoop (s : TestCS F) : List (LC F × LC F × LC F × String) → Option (Option String)
  | [] => some none
  | (a, b, c, path) :: ks =>
    (evalLc s.inputs s.aux a.terms 0).bind fun a =>
    (evalLc s.inputs s.aux b.terms 0).bind fun b =>
    (evalLc s.inputs s.aux c.terms 0).bind fun c =>
    if a * b ≠ c then some (some path) else whichLoop s ks

/-- src/gadgets/test/mod.rs:254-268 `which_is_unsatisfied`. -/
def whichIsUnsatisfied (s : TestCS F) : Option (Option String) := whichLoop s s.constraints

/-- src/gadgets/test/mod.rs:270-272 `is_satisfied`. -/
def isSatisfied (s : TestCS F) : Option Bool := s.whichIsUnsatisfied.map Option.isNone

/-- src/gadgets/test/mod.rs:274-276 `num_constraints`. -/
def numConstraints (s : TestCS F) : ℕ := s.constraints.length

/-- `v[i].0 = to` (src/gadgets/test/mod.rs:281-282); panics out of range. -/
def setVal (v : List (F × String)) (i : ℕ) (x : F) : Option (List (F × String)) :=
  match v[i]? with
  | none => none
  | some e => some (v.set i (x, e.2))

/-- src/gadgets/test/mod.rs:278-290 `set`. -/
def set (s : TestCS F) (path : String) (x : F) : Option (TestCS F) :=
  match s.named.lookup path with
  | some (.var (.input i)) => (setVal s.inputs i x).map fun v => { s with inputs := v }
  | some (.var (.aux i)) => (setVal s.aux i x).map fun v => { s with aux := v }
  | some _ => none
  | none => none

/-- src/gadgets/test/mod.rs:292-302 `verify`; the `assert_eq!` panics. -/
def verify (s : TestCS F) (expected : List F) : Option Bool :=
  if expected.length + 1 = s.inputs.length then
    some (((s.inputs.drop 1).zip expected).all fun ab => ab.1.1 = ab.2)
  else none

/-- src/gadgets/test/mod.rs:304-306 `num_inputs`. -/
def numInputs (s : TestCS F) : ℕ := s.inputs.length

/-- src/gadgets/test/mod.rs:308-314 `get_input`. -/
def getInput (s : TestCS F) (index : ℕ) (path : String) : Option F :=
  match s.inputs[index]? with
  | none => none
  | some (assignment, name) => if path = name then some assignment else none

/-- src/gadgets/test/mod.rs:316-328 `get`. -/
def get (s : TestCS F) (path : String) : Option F :=
  match s.named.lookup path with
  | some (.var (.input i)) => (s.inputs[i]?).map (·.1)
  | some (.var (.aux i)) => (s.aux[i]?).map (·.1)
  | some _ => none
  | none => none

/-- src/gadgets/test/mod.rs:229-252 `hash`: the bytes fed to BLAKE2s (the hash function itself, from `blake2s_simd`, and
the hexadecimal rendering are external). -/
def hashInput (toRepr : F → List UInt8) (s : TestCS F) : Option (List UInt8) :=
  ((s.constraints.mapM fun k =>
    (hashLc toRepr k.1.terms).bind fun a => (hashLc toRepr k.2.1.terms).bind fun b =>
    (hashLc toRepr k.2.2.1.terms).map fun c => a ++ b ++ c)).map fun ks =>
  u64be s.inputs.length ++ u64be s.aux.length ++ u64be s.constraints.length ++ ks.flatten

end TestCS

end Bellman

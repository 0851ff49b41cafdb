import Verif.Circ

/-!
# The MiMC circuit of the integration tests

groth16/tests/common/mod.rs: the function `mimc` and the circuit `MiMCDemo` that proves knowledge of a preimage.
-/

namespace Bellman.Mimc

variable {F : Type} [PrimeField F]

/-- groth16/tests/common/mod.rs:5 `MIMC_ROUNDS`. -/
def ROUNDS : ℕ := 322

/-- groth16/tests/common/mod.rs:20-34 `mimc`; `none` is the panic of the assertion. -/
def mimc (xl xr : F) (constants : List F) : Option F :=
  if constants.length = ROUNDS then
    let st := constants.foldl (fun (st : F × F) c =>
      let tmp1 := st.1 + c
      let tmp2 := tmp1 * tmp1
      let tmp2 := tmp2 * tmp1
      let tmp2 := tmp2 + st.2
      (tmp2, st.1)) (xl, xr)
    some st.1
  else none

/-- groth16/tests/common/mod.rs:38-43 `MiMCDemo`. -/
structure Demo (F : Type) where
  xl : Option F
  xr : Option F
  constants : List F

/-- The variables that the loop of `synthesize` carries: `xl`, `xl_value`, `xr`, `xr_value`. -/
structure State (F : Type) where
  xl : Var
  xlValue : Option F
  xr : Var
  xrValue : Option F

/-- groth16/tests/common/mod.rs:90-95, the two `unwrap`s: `None` panics if `xl_value` is known. -/
def newXlValue (c : F) (st : State F) (tmpValue : Option F) : Synth F (Option F) :=
  match st.xlValue with
  | none => pure none
  | some e =>
    match tmpValue with
    | none => Synth.panic "called `Option::unwrap()` on a `None` value"
    | some t =>
      match st.xrValue with
      | none => Synth.panic "called `Option::unwrap()` on a `None` value"
      | some r => pure (some ((e + c) * t + r))

/-- groth16/tests/common/mod.rs:67-124: round `i` with constant `c`. The values are computed outside the witness closures. -/
def round (i : ℕ) (c : F) (st : State F) : Synth F (State F) := Synth.inNs s!"round {i}" do
  let tmpValue := st.xlValue.map fun e => (e + c) * (e + c)
  let tmp ← Synth.alloc "tmp" (Synth.optGet tmpValue)
  Synth.enforce "tmp = (xL + Ci)^2" (fun lc => lc + st.xl + (c, Var.one)) (fun lc => lc + st.xl + (c, Var.one)) (fun lc => lc + tmp.1)
  let newValue ← newXlValue c st tmpValue
  let newXl ←
    if i = ROUNDS - 1 then Synth.allocInput "image" (Synth.optGet newValue)
    else Synth.alloc "new_xl" (Synth.optGet newValue)
  Synth.enforce "new_xL = xR + (xL + Ci)^3" (fun lc => lc + tmp.1) (fun lc => lc + st.xl + (c, Var.one)) (fun lc => lc + newXl.1 - st.xr)
  pure { xl := newXl.1, xlValue := newValue, xr := st.xl, xrValue := st.xlValue }

/-- groth16/tests/common/mod.rs:66-125 `for i in 0..MIMC_ROUNDS`, from round `i` on. The code indexes `constants[i]`; the assertion on
the length makes that the same as walking along the list. -/
def loop : List F → ℕ → State F → Synth F Unit
  | [], _, _ => pure ()
  | c :: cs, i, st => do
    let st ← round i c st
    loop cs (i + 1) st

/-- groth16/tests/common/mod.rs:48-129 `<MiMCDemo as Circuit>::synthesize`. -/
def Demo.synthesize (d : Demo F) : Synth F Unit :=
  if d.constants.length = ROUNDS then do
    let xl ← Synth.alloc "preimage xl" (Synth.optGet d.xl)
    let xr ← Synth.alloc "preimage xr" (Synth.optGet d.xr)
    loop d.constants 0 { xl := xl.1, xlValue := d.xl, xr := xr.1, xrValue := d.xr }
  else
    Synth.panic "assertion `left == right` failed"

end Bellman.Mimc

import Verif.Groth16.Machine
import Verif.Proofs.Machine
import Verif.Proofs.Crs
import Verif.Proofs.Proof
import Verif.Props.Machine
import Verif.Props.DomainOps

/-!
# Key generation and proving with machine integers: lemmas
-/

namespace Bellman

open PrimeField EvaluationDomain

variable {F : Type} [PrimeField F]

theorem built_length_lt {l : List F} {d : EvaluationDomain F F} (hl : l.length ≤ 2 ^ 63) (h : fromCoeffs l = some (.ok d)) :
    d.WF ∧ d.exp < 64 ∧ d.exp = Nat.clog 2 l.length := by
  rcases fromCoeffs_cases (F := F) l with ⟨d', hd, wd, hle, hmin, -⟩ | ⟨hd, -⟩
  · cases h.symm.trans hd
    have := clog_of_bounds hle hmin
    refine ⟨wd, ?_, this.symm⟩
    rw [← this]
    have := (Nat.clog_le_iff_le_pow (b := 2) (by norm_num)).2 hl
    omega
  · cases h.symm.trans hd

theorem WF_length_lt {d : EvaluationDomain F F} (hd : d.WF) (he : d.exp < 64) : d.coeffs.length < 2 ^ 64 := by
  rw [hd.len]
  exact Nat.pow_lt_pow_right (by norm_num) he

theorem toCosetW_eq (b : Build) (w : Worker) (hw : w.multicore = true → w.threads < 2 ^ 63) (d : EvaluationDomain F F) (hd : d.WF) (he : d.exp < 64) :
    toCosetW b w d = toCoset w d := by
  unfold toCosetW toCoset
  rw [ifftW_eq b (w.site 0) hw d hd (WF_length_lt hd he)]
  refine Option.bind_congr fun d' h => ?_
  obtain ⟨h1, h2⟩ := ifft_keeps hd h
  exact cosetFftW_eq b (w.site 1) hw d' h1 (WF_length_lt h1 (h2 ▸ he))

theorem hCoeffsW_eq (bd : Build) (w : Worker) (hw : w.multicore = true → w.threads < 2 ^ 63) (a b c : List F) (hab : a.length = b.length)
    (hac : a.length = c.length) (hl : a.length ≤ 2 ^ 63) : hCoeffsW bd w a b c = hCoeffs w a b c := by
  unfold hCoeffsW hCoeffs
  rw [fromCoeffsW_eq bd a hl, fromCoeffsW_eq bd b (hab ▸ hl), fromCoeffsW_eq bd c (hac ▸ hl)]
  refine Option.bind_congr fun x hx => ?_
  rcases x with e | x
  · rfl
  refine Option.bind_congr fun y hy => ?_
  rcases y with e | y
  · rfl
  refine Option.bind_congr fun z hz => ?_
  rcases z with e | z
  · rfl
  obtain ⟨x1, x2, x3⟩ := built_length_lt hl hx
  obtain ⟨y1, y2, y3⟩ := built_length_lt (hab ▸ hl) hy
  obtain ⟨z1, z2, z3⟩ := built_length_lt (hac ▸ hl) hz
  simp only [toCosetW_eq bd (w.site 0) hw x x1 x2, toCosetW_eq bd (w.site 1) hw y y1 y2, toCosetW_eq bd (w.site 2) hw z z1 z2]
  refine Option.bind_congr fun x' hx' => ?_
  refine Option.bind_congr fun y' hy' => ?_
  refine Option.bind_congr fun z' hz' => ?_
  obtain ⟨x4, x5⟩ := toCoset_keeps x1 hx'
  obtain ⟨y4, y5⟩ := toCoset_keeps y1 hy'
  obtain ⟨z4, z5⟩ := toCoset_keeps z1 hz'
  have exy : x'.coeffs.length = y'.coeffs.length := by rw [x4.len, y4.len, x5, y5, x3, y3, hab]
  have exz : x'.coeffs.length = z'.coeffs.length := by rw [x4.len, z4.len, x5, z5, x3, z3, hac]
  rw [mulAssign_eq _ _ _ exy x4.pos]
  simp only [Option.bind_eq_bind, Option.bind_some]
  have u1 : (List.zipWith (fun x y => y • x) x'.coeffs y'.coeffs).length = x'.coeffs.length := by simp [exy]
  have w1 := x4.with_coeffs _ u1
  rw [subAssign_eq _ _ _ (u1.trans exz) w1.pos]
  simp only [Option.bind_some]
  have u2 : (List.zipWith (fun x y => x - y) (List.zipWith (fun x y => y • x) x'.coeffs y'.coeffs) z'.coeffs).length = x'.coeffs.length := by
    simp [exy, ← exz]
  have w2 := x4.with_coeffs _ u2
  rw [divideByZ_eq _ _ w2]
  simp only [Option.bind_some]
  set l := List.map (fun x => _) _ with hlist
  have u3 : l.length = x'.coeffs.length := by rw [hlist, List.length_map]; exact u2
  have w3 := x4.with_coeffs _ u3
  rw [icosetFftW_eq bd (w.site 6) hw _ w3 (WF_length_lt w3 (x5 ▸ x2))]
  refine Option.bind_congr fun v hv => ?_
  have hv1 : 0 < v.coeffs.length := by
    unfold icosetFft at hv
    simp only [Option.bind_eq_bind, Option.bind_eq_some_iff] at hv
    obtain ⟨v1, h1, h2⟩ := hv
    exact (distribute_keeps (ifft_keeps w3 h1).1 h2).1.pos
  rw [bd.sub_le (show 1 ≤ v.intoCoeffs.length from hv1)]
  rfl

theorem powersW_eq (b : Build) (w : Worker) (tau : F) (l : List F) (hl : l.length < 2 ^ 64) :
    w.forChunks l.length (powersTaskW b tau) Prod.fst l = w.forChunks l.length (powersTask tau) Prod.fst l := by
  refine Worker.forChunks_congr w _ _ _ _ _ fun i c _ h => ?_
  unfold powersTaskW powersTask
  rw [b.mul_lt (show i * w.chunkSize l.length < 2 ^ 64 by omega), Option.isSome_some, Task.guarded_true, Nat.mod_eq_of_lt (by omega)]

section

variable {G1 G2 : Type} [AddCommGroup G1] [AddCommGroup G2] [Module F G1] [Module F G2] [DecidableEq G1] [DecidableEq G2]

theorem Res.bind_congr {α β : Type} {x : Res α} {f g : α → Res β} (h : ∀ a, x = Res.ok a → f a = g a) : (x >>= f) = (x >>= g) := by
  rcases x with _ | (e | a)
  · rfl
  · rfl
  · exact h a rfl

theorem createProofW_eq (b : Build) (w : Worker) (hw : w.multicore = true → w.threads < 2 ^ 63) (circuit : Synth F Unit) (params : Parameters G1 G2) (r s : F)
    (hsize : ∀ t, ProverTrace circuit t → (consOf t).length + numIn t + 1 ≤ 2 ^ 63) :
    createProofW b w circuit params r s = createProof w circuit params r s := by
  unfold createProofW createProof
  refine Res.bind_congr fun p hp => ?_
  unfold proveFromW
  simp only [C84_multiexp]
  rcases assign?_cases circuit with ⟨t, _, ht, -, p', hp', ha⟩ | ⟨e, _, he⟩ | ⟨_, he⟩
  · cases hp.symm.trans hp'
    have h := hsize t ht
    rw [hCoeffsW_eq b (w.site 0) hw p.a p.b p.c (by rw [ha.a, ha.b]; simp) (by rw [ha.a, ha.c]; simp)
      (by rw [ha.a]; simp [inputRows]; omega)]
  · cases hp.symm.trans he
  · cases hp.symm.trans he

theorem generateParametersW_eq (b : Build) (w : Worker) (hw : w.multicore = true → w.threads < 2 ^ 63) (circuit : Synth F Unit) (g1 : G1) (g2 : G2)
    (α β γ δ τ : F) (hsize : ∀ t, KeyTrace circuit t → (consOf t).length + numIn t + 1 ≤ 2 ^ 63 ∧ numIn t + 1 + numAux t < 2 ^ 64) :
    generateParametersW b w circuit g1 g2 α β γ δ τ = generateParameters w circuit g1 g2 α β γ δ τ := by
  unfold generateParametersW generateParameters
  refine Res.bind_congr fun s hs => ?_
  unfold generateFromW
  rcases assemble_cases circuit with ⟨t, s', ht, hs', hh⟩ | ⟨e, _, he⟩ | ⟨_, he⟩
  swap
  · cases hs.symm.trans he
  swap
  · cases hs.symm.trans he
  cases hs.symm.trans hs'
  obtain ⟨h1, h2⟩ := hsize t ht
  have hc : (List.replicate s.numConstraints (0 : F)).length ≤ 2 ^ 63 := by
    rw [List.length_replicate, hh.constraints]; simp [inputRows]; omega
  rw [fromCoeffsW_eq b _ hc]
  refine Res.bind_congr fun d hd => ?_
  obtain ⟨wd, hd1, -⟩ := built_length_lt hc hd
  have hlen := WF_length_lt wd hd1
  refine Res.bind_congr fun gi _ => ?_
  refine Res.bind_congr fun di _ => ?_
  rw [b.sub_le (show 1 ≤ d.coeffs.length from wd.pos)]
  simp only [Res.lift_some, Res.ok_bind]
  rw [powersW_eq b _ τ d.coeffs hlen, powers_eq _ _ _ wd.pos]
  simp only [Res.lift_some, Res.ok_bind]
  have hl : (d.coeffs.mapIdx fun i _ => τ ^ i).length = d.coeffs.length := by simp
  refine Res.bind_congr fun h _ => ?_
  rw [ifftW_eq b (w.site 2) hw _ (wd.with_coeffs _ hl) (by rw [hl]; exact hlen)]
  refine Res.bind_congr fun pot _ => ?_
  rw [b.add_lt (show s.numInputs + s.numAux < 2 ^ 64 by rw [hh.inputs, hh.aux]; exact h2)]
  rfl

end

end Bellman

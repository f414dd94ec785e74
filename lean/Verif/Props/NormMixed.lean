/-
C117: the norms of the finite deformation elements with volume change fields. The energy reported for a mixed element is the potential of its forces, the one for a three-field element is the value of its potential in
equilibrium, and the one for an F-bar element is no potential.
-/
import Verif.Model.NormMixed
import Verif.Props.NormUL
import Verif.Props.TripleElem

set_option linter.unusedSectionVars false
set_option linter.unusedSimpArgs false
set_option linter.unusedVariables false
set_option linter.unnecessarySeqFocus false

namespace Verif.Finite

open Verif.Cont Verif.ContSpec Verif.FiniteSpec Verif.Fbar Verif.Mixed Filter Topology

variable {nPM : Nat}

/-! ### Specification -/

/-- The norms `N` are those of the integration points `pts`, which have the volumes `w` in the initial configuration, the strain energy densities `U`, the volume ratios `J` and the stresses `S` (a tensor in three dimensions):
strain energy, deformed volume, and the integrals over the deformed volume of the contraction of the stresses, of their squared mean value, and of the contraction of the deviatoric stresses; the squared von Mises stress
is three halves of the latter. -/
structure NormsOf {α : Type} (N : NormUL.Norms ℝ) (pts : List α) (w U J : α → ℝ) (S : α → Nat → Nat → ℝ) : Prop where
  energy : N.energy = (pts.map fun p => w p * U p).sum
  vol : N.vol = (pts.map fun p => w p * J p).sum
  stress : N.stress = (pts.map fun p => w p * J p * ∑ i ∈ Finset.range 3, ∑ j ∈ Finset.range 3, S p (i + 1) (j + 1) ^ 2).sum
  press : N.press = (pts.map fun p => w p * J p * ((S p 1 1 + S p 2 2 + S p 3 3) / 3) ^ 2).sum
  dev : N.dev = (pts.map fun p => w p * J p * ∑ i ∈ Finset.range 3, ∑ j ∈ Finset.range 3, (S p (i + 1) (j + 1) - if i = j then (S p 1 1 + S p 2 2 + S p 3 3) / 3 else 0) ^ 2).sum
  vm : N.vm = 3 / 2 * (pts.map fun p => w p * J p * ∑ i ∈ Finset.range 3, ∑ j ∈ Finset.range 3, (S p (i + 1) (j + 1) - if i = j then (S p 1 1 + S p 2 2 + S p 3 3) / 3 else 0) ^ 2).sum
  ext : N.ext = 0

/-- A strain energy in `d` dimensions, whose stresses are `sig`: `W' = J σ : L` in every motion. -/
def EnergyD (d : Nat) (W : (Nat → Nat → ℝ) → ℝ) (sig : (Nat → Nat → ℝ) → Nat → ℝ) : Prop :=
  ∀ (P : ℝ → Nat → Nat → ℝ) (L : Nat → Nat → ℝ), (lead d (P 0)).det ≠ 0 →
    (∀ i j, i < d → j < d → HasDerivAt (fun t => P t (i + 1) (j + 1)) (∑ k ∈ Finset.range d, L (i + 1) (k + 1) * P 0 (k + 1) (j + 1)) 0) →
    HasDerivAt (fun t => W (P t)) ((lead d (P 0)).det * ∑ i ∈ Finset.range d, ∑ j ∈ Finset.range d, symT d false (sig (P 0)) (i + 1) (j + 1) * L (i + 1) (j + 1)) 0

/-- The stress tensor of plane strain: components xx, yy, zz, xy. -/
def planeS (s : Nat → ℝ) (i j : Nat) : ℝ := if i = j then s i else if i = 3 ∨ j = 3 then 0 else s 4

/-! ### Lemmas -/

theorem total_norms {α : Type} (pts : List α) (w U J : α → ℝ) (T : α → NormUL.Sym ℝ) (S : α → Nat → Nat → ℝ)
    (h : ∀ p ∈ pts, (T p = symSolid (fun k => if k ≤ 3 then S p k k else if k = 4 then S p 1 2 else if k = 5 then S p 2 3 else S p 1 3) ∨ (T p = ⟨2, [S p 1 1, S p 2 2, S p 3 3], [S p 1 2]⟩ ∧ S p 2 3 = 0 ∧ S p 1 3 = 0)) ∧
      S p 2 1 = S p 1 2 ∧ S p 3 2 = S p 2 3 ∧ S p 3 1 = S p 1 3) :
    NormsOf (NormUL.total (pts.map fun p => ⟨T p, U p, J p, w p⟩)) pts w U J S := by
  have e : ∀ p ∈ pts, NormUL.pressure (T p) = (S p 1 1 + S p 2 2 + S p 3 3) / 3 ∧ (T p).dot = ∑ i ∈ Finset.range 3, ∑ j ∈ Finset.range 3, S p (i + 1) (j + 1) ^ 2 ∧
      ((T p).sub (NormUL.pressure (T p))).dot = ∑ i ∈ Finset.range 3, ∑ j ∈ Finset.range 3, (S p (i + 1) (j + 1) - if i = j then (S p 1 1 + S p 2 2 + S p 3 3) / 3 else 0) ^ 2 ∧
      (T p).vm = 3 / 2 * ∑ i ∈ Finset.range 3, ∑ j ∈ Finset.range 3, (S p (i + 1) (j + 1) - if i = j then (S p 1 1 + S p 2 2 + S p 3 3) / 3 else 0) ^ 2 := by
    intro p hp
    obtain ⟨h1, h2, h3, h4⟩ := h p hp
    have a : NormUL.pressure (T p) = (S p 1 1 + S p 2 2 + S p 3 3) / 3 := by
      rcases h1 with h1 | ⟨h1, h5, h6⟩ <;> rw [h1] <;> simp [NormUL.pressure, symSolid, NormUL.Sym.size, NormUL.Sym.trace] <;> ring
    refine ⟨a, ?_, ?_, ?_⟩
    · rcases h1 with h1 | ⟨h1, h5, h6⟩ <;> rw [h1] <;> simp [symSolid, NormUL.Sym.dot, Finset.sum_range_succ, h2, h3, h4, *] <;> ring
    · rw [a]
      rcases h1 with h1 | ⟨h1, h5, h6⟩ <;> rw [h1] <;> simp [symSolid, NormUL.Sym.dot, NormUL.Sym.sub, Finset.sum_range_succ, h2, h3, h4, *] <;> ring
    · rcases h1 with h1 | ⟨h1, h5, h6⟩ <;> rw [h1] <;> simp [symSolid, NormUL.Sym.vm, Finset.sum_range_succ, h2, h3, h4, *] <;> ring
  constructor <;> (rw [NormUL.total, NormUL.foldl_gen]; simp only [NormUL.Norms.zero, zero_add, List.map_map, Function.comp_def])
  · exact map_sum_congr _ _ _ fun p hp => mul_comm _ _
  · exact map_sum_congr _ _ _ fun p hp => by rw [(e p hp).2.1]; ring
  · exact map_sum_congr _ _ _ fun p hp => by rw [(e p hp).1]; ring
  · exact map_sum_congr _ _ _ fun p hp => by rw [(e p hp).2.2.1]; ring
  · rw [← List.sum_map_mul_left]
    exact map_sum_congr _ _ _ fun p hp => by rw [(e p hp).2.2.2]; ring

theorem solid_sym (s : Nat → ℝ) : symSolid s = symSolid (fun k => if k ≤ 3 then symT 3 false s k k else if k = 4 then symT 3 false s 1 2 else if k = 5 then symT 3 false s 2 3 else symT 3 false s 1 3) := by
  simp [symSolid, symT]

theorem mxNormPts_ok {α : Type} (pts : List α) (em : α → EMat) (k : α → MxData nPM) (th : α → ℝ) (s : α → Nat → ℝ) (U : α → ℝ)
    (h : ∀ p ∈ pts, em p (fun i j => (k p).F i j * |th p / (lead 3 (k p).F).det| ^ ((1 : ℝ) / 3)) (mxGreen (k p).F) = .ok (s p, U p)) (n : NormUL.Norms ℝ) :
    mxNormPts (pts.map fun p => (em p, k p, th p)) n = .ok ((pts.map fun p => (⟨symSolid (s p), U p, th p, (k p).pt.w⟩ : NormUL.Pt ℝ)).foldl (fun n p => NormUL.evalInt n p.S p.U p.J p.w) n) := by
  induction pts generalizing n with
  | nil => rfl
  | cons p l ih => simp only [List.map_cons, mxNormPts, h p (by simp), Res.bind, ih fun q hq => h q (by simp [hq]), List.foldl_cons]

theorem mxNormTheta_ok (nsd : Nat) (axi : Bool) (n : Nat) (pts : List (MPt nPM)) (hm : 1 ≤ nPM) (h1 : ∀ p ∈ pts, p.phi ⟨0, hm⟩ = 1) (hdet : (modeMat axi pts).det ≠ 0) (u : Nat → Nat → ℝ) :
    mxNormTheta (pts.map (mDat nsd axi n u)) = .ok (pts.map (mTh nsd axi n pts u)) := by
  have hH : hmat (pts.map ((fun x : MxData nPM => x.pt) ∘ mDat nsd axi n u)) = modeMat axi pts :=
    hmat_mode axi pts (fun p => (mDat nsd axi n u p).pt) (fun _ => rfl) fun _ => rfl
  unfold mxNormTheta
  simp only [List.map_map, hH]
  rw [if_neg hdet]
  have hi : ((modeMat axi pts).det)⁻¹ • (modeMat axi pts).adjugate = (modeMat axi pts)⁻¹ := by rw [Matrix.inv_def, Ring.inverse_eq_inv']
  rw [hi]
  split_ifs with e
  · subst e
    congr 1
    refine List.map_congr_left fun p hp => ?_
    have hs : (pts.map fun q => q.phi 0 * mxJ nsd axi n q u * mwt axi q).sum = (List.map ((fun d : MxData 1 => (lead 3 d.F).det * d.pt.w) ∘ mDat nsd axi n u) pts).sum := by
      refine map_sum_congr _ _ _ fun q hq => ?_
      rw [show q.phi 0 = 1 from h1 q hq, one_mul]
      rfl
    unfold mTh mprj
    simp only [Fin.sum_univ_one, Function.comp]
    rw [hs, show p.phi 0 = 1 from h1 p hp, mul_one, mul_comm]
    rfl
  · congr 1

theorem mprj_one (axi : Bool) (pts : List (MPt nPM)) (hm : 1 ≤ nPM) (h1 : ∀ p ∈ pts, p.phi ⟨0, hm⟩ = 1) (hdet : (modeMat axi pts).det ≠ 0) (p : MPt nPM) (hp : p ∈ pts) : mprj axi pts (fun _ => 1) p = 1 := by
  have e : ∀ i, ∑ j, (modeMat axi pts)⁻¹ i j * (pts.map fun q => q.phi j * 1 * mwt axi q).sum = if i = ⟨0, hm⟩ then 1 else 0 := by
    intro i
    have : ((modeMat axi pts)⁻¹ * modeMat axi pts) i ⟨0, hm⟩ = (1 : Matrix (Fin nPM) (Fin nPM) ℝ) i ⟨0, hm⟩ := by rw [Matrix.nonsing_inv_mul _ (isUnit_iff_ne_zero.mpr hdet)]
    rw [Matrix.mul_apply, Matrix.one_apply] at this
    rw [← this]
    refine Finset.sum_congr rfl fun j _ => ?_
    congr 1
    exact map_sum_congr _ _ _ fun q hq => by rw [h1 q hq]; ring
  unfold mprj
  simp only [e, ite_mul, one_mul, zero_mul, Finset.sum_ite_eq', Finset.mem_univ, if_true]
  exact h1 p hp

theorem vol_sum (nsd : Nat) (axi : Bool) (n : Nat) (pts : List (MPt nPM)) (hm : 1 ≤ nPM) (h1 : ∀ p ∈ pts, p.phi ⟨0, hm⟩ = 1) (hdet : (modeMat axi pts).det ≠ 0) (u : Nat → Nat → ℝ) :
    (pts.map fun p => mwt axi p * mTh nsd axi n pts u p).sum = (pts.map fun p => mwt axi p * mxJ nsd axi n p u).sum := by
  have h := mprj_adjoint axi pts hdet (fun q => mxJ nsd axi n q u) fun _ => 1
  refine Eq.trans ?_ (h.trans ?_)
  · exact map_sum_congr _ _ _ fun p _ => by rw [mul_one]; rfl
  · exact map_sum_congr _ _ _ fun p hp => by rw [mprj_one axi pts hm h1 hdet p hp, mul_one]

theorem green_sym (F : Nat → Nat → ℝ) (i j : Nat) (hi : i < 3) (hj : j < 3) :
    symT 3 false (mxGreen F) (i + 1) (j + 1) = 1 / 2 * (∑ k ∈ Finset.range 3, F (k + 1) (i + 1) * F (k + 1) (j + 1) - if i = j then 1 else 0) := by
  interval_cases i <;> interval_cases j <;> simp [symT, mxGreen, Finset.sum_range_succ] <;> ring

theorem mxNorm_run (nsd : Nat) (axi : Bool) (n : Nat) (epsR : ℝ) (pts : List (MPt nPM)) (eP : DVec ℝ) (hE : MxOk nsd axi n epsR pts eP) (em : MPt nPM → EMat) (u : Nat → Nat → ℝ) (hJ : ∀ p ∈ pts, mxJ nsd axi n p u ≠ 0)
    (s : MPt nPM → Nat → ℝ) (U : MPt nPM → ℝ) (hem : ∀ p ∈ pts, em p (mFb nsd axi n pts u p) (mxGreen (mxF nsd axi n p u)) = .ok (s p, U p)) :
    mxNorm nsd axi epsR ⟨nsd * n, dofVec nsd u⟩ eP (pts.map fun p => (p, em p)) = .ok (NormUL.total (pts.map fun p => ⟨symSolid (s p), U p, mTh nsd axi n pts u p, mwt axi p⟩)) := by
  obtain ⟨a1, a2, a3, a4, a5, a6, a7, a8⟩ := hE
  unfold mxNorm
  have l1 : (pts.map fun p => (p, em p)).map (·.1) = pts := by rw [List.map_map]; exact List.map_id _
  have l2 : (pts.map fun p => (p, em p)).map (·.2) = pts.map em := by rw [List.map_map]; rfl
  rw [l1, l2, mxAll_ok nsd axi a1 n a2 epsR pts a4 u eP a8 hJ]
  simp only [Res.bind]
  rw [mxNormTheta_ok nsd axi n pts a5 a6 a7 u]
  simp only []
  rw [zip_maps, zip_maps]
  exact mxNormPts_ok pts em (mDat nsd axi n u) (mTh nsd axi n pts u) s U (fun p hp => by
    rw [← hem p hp]
    congr 1
    funext i j
    exact mul_comm _ _) _

/-! ### Mixed element -/

/-- C117: the norms of a mixed element are those of the stresses and strain energy of its modified deformation gradients, in the volume given by the projected volume ratios. This is the volume of the deformed element.
The material is given the Green-Lagrange strains of the deformation gradient. -/
theorem C117_mixed_norms (nsd : Nat) (axi : Bool) (n : Nat) (epsR : ℝ) (pts : List (MPt nPM)) (eP : DVec ℝ) (hE : MxOk nsd axi n epsR pts eP) (em : MPt nPM → EMat) (u : Nat → Nat → ℝ) (hJ : ∀ p ∈ pts, mxJ nsd axi n p u ≠ 0)
    (s : MPt nPM → Nat → ℝ) (U : MPt nPM → ℝ)
    (hem : ∀ p ∈ pts, ∀ E, (∀ i j, i < 3 → j < 3 → symT 3 false E (i + 1) (j + 1) = 1 / 2 * (∑ k ∈ Finset.range 3, mxF nsd axi n p u (k + 1) (i + 1) * mxF nsd axi n p u (k + 1) (j + 1) - if i = j then 1 else 0)) →
      em p (fun i j => |mTh nsd axi n pts u p / mxJ nsd axi n p u| ^ ((1 : ℝ) / 3) * mxF nsd axi n p u i j) E = .ok (s p, U p)) :
    ∃ N, mxNorm nsd axi epsR ⟨nsd * n, dofVec nsd u⟩ eP (pts.map fun p => (p, em p)) = .ok N ∧
      NormsOf N pts (mwt axi) U (mTh nsd axi n pts u) (fun p => symT 3 false (s p)) ∧ N.vol = (pts.map fun p => mwt axi p * mxJ nsd axi n p u).sum := by
  have h := total_norms pts (mwt axi) U (mTh nsd axi n pts u) (fun p => symSolid (s p)) (fun p => symT 3 false (s p)) fun p hp => ⟨.inl (solid_sym _), by simp [symT], by simp [symT], by simp [symT]⟩
  exact ⟨_, mxNorm_run nsd axi n epsR pts eP hE em u hJ s U fun p hp => hem p hp _ fun i j hi hj => green_sym _ i j hi hj, h, h.vol.trans (vol_sum nsd axi n pts hE.modes hE.constant hE.independent u)⟩

/-- C117: dependent pressure modes (in particular fewer integration points than modes) are reported as an error; no norms are handed out. -/
theorem C117_mixed_dependent (nsd : Nat) (axi : Bool) (n : Nat) (epsR : ℝ) (pts : List (MPt nPM)) (eP : DVec ℝ) (dim : nsd = 2 ∨ nsd = 3 ∧ axi = false) (nodes : 0 < n)
    (points : ∀ p ∈ pts, p.pt.dN.nr = n ∧ p.pt.dN.nc = nsd ∧ (axi = true → p.pt.N.n = n ∧ epsR < p.pt.X ∧ 0 < p.pt.X)) (previous : eP.n = 0 ∨ eP.n = nsd * n)
    (dependent : ∃ c : Fin nPM → ℝ, c ≠ 0 ∧ ∀ p ∈ pts, ∑ i, c i * p.phi i = 0) (em : MPt nPM → EMat) (u : Nat → Nat → ℝ) (hJ : ∀ p ∈ pts, mxJ nsd axi n p u ≠ 0) :
    mxNorm nsd axi epsR ⟨nsd * n, dofVec nsd u⟩ eP (pts.map fun p => (p, em p)) = .fail := by
  have hdet : (modeMat axi pts).det = 0 := by
    obtain ⟨c, hc, hz⟩ := dependent
    refine Matrix.exists_mulVec_eq_zero_iff.1 ⟨c, hc, ?_⟩
    funext i
    show ∑ j, (pts.map fun p => mwt axi p * p.phi i * p.phi j).sum * c j = 0
    clear hJ points
    induction pts with
    | nil => simp
    | cons p l ih =>
      have h1 := ih fun q hq => hz q (by simp [hq])
      have h2 := hz p (by simp)
      simp only [List.map_cons, List.sum_cons, add_mul, Finset.sum_add_distrib]
      rw [h1, add_zero]
      calc ∑ j, mwt axi p * p.phi i * p.phi j * c j = mwt axi p * p.phi i * ∑ j, c j * p.phi j := by
            rw [Finset.mul_sum]; exact Finset.sum_congr rfl fun j _ => by ring
        _ = 0 := by rw [h2, mul_zero]
  unfold mxNorm
  have l1 : (pts.map fun p => (p, em p)).map (·.1) = pts := by rw [List.map_map]; exact List.map_id _
  rw [l1, mxAll_ok nsd axi dim n nodes epsR pts points u eP previous hJ]
  simp only [Res.bind]
  have hH : hmat (pts.map ((fun x : MxData nPM => x.pt) ∘ mDat nsd axi n u)) = modeMat axi pts :=
    hmat_mode axi pts (fun p => (mDat nsd axi n u p).pt) (fun _ => rfl) fun _ => rfl
  have : mxNormTheta (pts.map (mDat nsd axi n u)) = .fail := by
    unfold mxNormTheta
    simp only [List.map_map, hH]
    rw [if_pos hdet]
  rw [this]

/-- Two pressure modes and one integration point: the modes are dependent. -/
example (p : MPt 2) (h : p.phi 0 = 1 ∧ p.phi 1 = 5) : ∃ c : Fin 2 → ℝ, c ≠ 0 ∧ ∀ q ∈ [p], ∑ i, c i * q.phi i = 0 := by
  refine ⟨![5, -1], fun h0 => by simpa using congrFun h0 0, fun q hq => ?_⟩
  rw [List.mem_singleton.1 hq, Fin.sum_univ_two, h.1, h.2]
  simp

/-- C117: the energy reported for a mixed element of a hyperelastic material is the potential of its forces: its rate is minus the virtual work of the forces, in every direction. -/
theorem C117_mixed_rate (nsd : Nat) (axi : Bool) (n : Nat) (tol epsR : ℝ) (pts : List (MPt nPM)) (eP : DVec ℝ) (hE : MxOk nsd axi n epsR pts eP) (sig : MPt nPM → (Nat → Nat → ℝ) → Nat → ℝ)
    (c : MPt nPM → (Nat → Nat → ℝ) → DMat ℝ) (hmat : ∀ p ∈ pts, ∀ F E, (lead 3 F).det ≠ 0 → p.mat F E = .ok (c p F, sig p F)) (W : MPt nPM → (Nat → Nat → ℝ) → ℝ) (hW : ∀ p ∈ pts, Energy (W p) (sig p))
    (em : MPt nPM → EMat) (hem : ∀ p ∈ pts, ∀ F E, (lead 3 F).det ≠ 0 → em p F E = .ok (sig p F, W p F)) (u : Nat → Nat → ℝ)
    (hJ : ∀ p ∈ pts, 0 < mxJ nsd axi n p u) (hT : ∀ p ∈ pts, 0 < mTh nsd axi n pts u p)
    (hs : ∀ p ∈ pts, (∀ i, 1 ≤ i → i ≤ 6 → |mS nsd axi n pts sig u p i| ≤ tol) → ∀ i, 1 ≤ i → i ≤ 6 → mS nsd axi n pts sig u p i = 0) :
    ∃ (A : DMat ℝ) (f : DVec ℝ), mxElement nsd axi tol epsR ⟨nsd * n, dofVec nsd u⟩ eP pts (DMat.zero (nsd * n) (nsd * n), DVec.zero (nsd * n)) = .ok (A, f) ∧
      ∀ x, ∃ N : ℝ → NormUL.Norms ℝ, mxNorm nsd axi epsR ⟨nsd * n, dofVec nsd u⟩ eP (pts.map fun p => (p, em p)) = .ok (N 0) ∧
        (∀ᶠ t in 𝓝 (0 : ℝ), mxNorm nsd axi epsR ⟨nsd * n, dofVec nsd fun a i => u a i + t * x a i⟩ eP (pts.map fun p => (p, em p)) = .ok (N t)) ∧ HasDerivAt (fun t => (N t).energy) (-f.dot (dofVec nsd x)) 0 := by
  obtain ⟨A, f, e1, e2⟩ := C114_potential nsd axi n tol epsR pts eP hE sig c hmat W hW u hJ hT hs
  refine ⟨A, f, e1, fun x => ?_⟩
  have hJ' : ∀ p ∈ pts, mxJ nsd axi n p u ≠ 0 := fun p hp => (hJ p hp).ne'
  have hrun : ∀ v, (∀ p ∈ pts, mxJ nsd axi n p v ≠ 0) → (∀ p ∈ pts, mTh nsd axi n pts v p ≠ 0) → mxNorm nsd axi epsR ⟨nsd * n, dofVec nsd v⟩ eP (pts.map fun p => (p, em p))
      = .ok (NormUL.total (pts.map fun p => ⟨symSolid (sig p (mFb nsd axi n pts v p)), W p (mFb nsd axi n pts v p), mTh nsd axi n pts v p, mwt axi p⟩)) := fun v h1 h2 =>
    mxNorm_run nsd axi n epsR pts eP hE em v h1 (fun p => sig p (mFb nsd axi n pts v p)) (fun p => W p (mFb nsd axi n pts v p)) fun p hp => hem p hp _ _ (mFb_det nsd axi n pts v p (h1 p hp) (h2 p hp))
  refine ⟨fun t => NormUL.total (pts.map fun p => ⟨symSolid (sig p (mFb nsd axi n pts (along u x t) p)), W p (mFb nsd axi n pts (along u x t) p), mTh nsd axi n pts (along u x t) p, mwt axi p⟩), ?_, ?_, ?_⟩
  · simp only [along_zero]
    exact hrun u hJ' fun p hp => (hT p hp).ne'
  · have k1 := ev_list pts (fun t p => mxJ nsd axi n p (along u x t) ≠ 0) fun p hp =>
      (J_deriv nsd axi hE.dim n epsR p (hE.points p hp) u x (hJ' p hp)).continuousAt.eventually_ne (by rw [along_zero]; exact hJ' p hp)
    have k2 := ev_list pts (fun t p => mTh nsd axi n pts (along u x t) p ≠ 0) fun p hp =>
      (Th_deriv nsd axi hE.dim n epsR pts hE.points hE.independent u x hJ' p (hT p hp).ne').continuousAt.eventually_ne (by rw [along_zero]; exact (hT p hp).ne')
    filter_upwards [k1, k2] with t h1 h2
    exact hrun (along u x t) h1 h2
  · refine (e2 x).congr_of_eventuallyEq (Eventually.of_forall fun t => ?_)
    exact (total_norms pts (mwt axi) _ _ (fun p => symSolid _) (fun p => symT 3 false _) fun p hp => ⟨.inl (solid_sym _), by simp [symT], by simp [symT], by simp [symT]⟩).energy

/-- A stretched ring. -/
example : ∃ u, MxOk 2 true 3 0 [ring3 1 1] (DVec.zero 0) ∧ Energy (neoW 1 1) (neo3 1 1) ∧ 0 < mxJ 2 true 3 (ring3 1 1) u ∧ 0 < mTh 2 true 3 [ring3 1 1] u (ring3 1 1) ∧ mS 2 true 3 [ring3 1 1] (fun _ => neo3 1 1) u (ring3 1 1) 1 ≠ 0 := by
  have hJ : mxJ 2 true 3 (ring3 1 1) (fun a i => if a = 2 ∧ i = 1 then 1 else 0) = 8 / 3 := by
    simp [mxJ, Matrix.det_fin_three, lead, mxF, mRef, tens, grad, val, ring3, triangle, Finset.sum_range_succ]
    norm_num
  have hJ' : (lead 3 (mxF 2 true 3 (ring3 1 1) (fun a i => if a = 2 ∧ i = 1 then 1 else 0))).det = 8 / 3 := hJ
  obtain ⟨o1, o2, -⟩ := one_point 2 true 3 (ring3 1 1) rfl (by rw [ring3_wt]; simp) (fun _ => neo3 1 1) (fun a i => if a = 2 ∧ i = 1 then 1 else 0) (by rw [hJ]; norm_num)
  refine ⟨fun a i => if a = 2 ∧ i = 1 then 1 else 0, ring3_ok 1 1 0 le_rfl one_pos true, neoW_ok 1 1, by rw [hJ]; norm_num, by rw [o1, hJ]; norm_num, ?_⟩
  rw [o2]
  unfold neo3
  simp only [hJ']
  simp [mxF, mRef, tens, grad, val, ring3, triangle, Finset.sum_range_succ]
  norm_num

/-! ### Three-field element -/

theorem tNormPt_ok (nsd : Nat) (axi : Bool) (hd : MDim nsd axi) (n m : Nat) (hn : 0 < n) (epsR : ℝ) (p : TPt) (hp : MPtOk nsd axi n epsR (tq p)) (hN2 : p.N2.n = m) (u : Nat → Nat → ℝ) (th : Nat → ℝ)
    (hJ : mxJ nsd axi n (tq p) u ≠ 0) (em : EMat) (s : Nat → ℝ) (U : ℝ)
    (hem : ∀ F E, kinUL nsd axi ⟨nsd * n, dofVec nsd u⟩ p.pt epsR = .ok (F, E) → em (tFb nsd axi n p u (1 + tval m p th)) E = .ok (s, U)) (N : NormUL.Norms ℝ) :
    tNormPt nsd axi epsR ⟨nsd * n, dofVec nsd u⟩ ⟨m, th⟩ p em N = .ok (NormUL.evalInt N (symSolid s) U (1 + tval m p th) (mwt axi (tq p))) := by
  have hk : kinUL nsd axi ⟨nsd * n, dofVec nsd u⟩ p.pt epsR = _ := kin_F nsd axi hd n hn epsR (tq p) hp u
  have hdet : (lead (if axi then 3 else nsd) (mxF nsd axi n (tq p) u)).det = mxJ nsd axi n (tq p) u := by
    cases axi with
    | true => rfl
    | false =>
      have := det_lead nsd false hd n (tq p) u
      simpa using this
  have hT : p.N2.dot th + 1 = 1 + tval m p th := by
    rw [add_comm]
    unfold DVec.dot tval
    rw [hN2]
    exact congrArg (1 + ·) (Finset.sum_congr rfl fun b _ => mul_comm _ _)
  have hm := hem _ _ hk
  unfold tNormPt
  rw [hk]
  simp only [Res.bind, hT]
  rw [hdet, if_neg hJ, tFbar_eq nsd axi hd n (tq p) u (1 + tval m p th)]
  have hm' : em (fun i j => |(1 + tval m p th) / mxJ nsd axi n (tq p) u| ^ ((1 : ℝ) / 3) * mxF nsd axi n (tq p) u i j)
      (strainV nsd axi (defGrad nsd axi true (tq p).pt.N (tq p).pt.dN (tq p).pt.X epsR (dofVec nsd u))) = .ok (s, U) := hm
  rw [hm']
  rfl

theorem tNorm_run (nsd : Nat) (axi : Bool) (n m : Nat) (epsR : ℝ) (pts : List TPt) (hE : TrOk nsd axi n m epsR pts) (em : TPt → EMat) (u : Nat → Nat → ℝ) (th : Nat → ℝ) (hJ : ∀ p ∈ pts, mxJ nsd axi n (tq p) u ≠ 0)
    (s : TPt → Nat → ℝ) (U : TPt → ℝ)
    (hem : ∀ p ∈ pts, ∀ F E, kinUL nsd axi ⟨nsd * n, dofVec nsd u⟩ p.pt epsR = .ok (F, E) → em p (tFb nsd axi n p u (1 + tval m p th)) E = .ok (s p, U p)) (N : NormUL.Norms ℝ) :
    tNorm nsd axi epsR ⟨nsd * n, dofVec nsd u⟩ ⟨m, th⟩ (pts.map fun p => (p, em p)) N
      = .ok ((pts.map fun p => (⟨symSolid (s p), U p, 1 + tval m p th, mwt axi (tq p)⟩ : NormUL.Pt ℝ)).foldl (fun n p => NormUL.evalInt n p.S p.U p.J p.w) N) := by
  obtain ⟨a1, a2, a3⟩ := hE
  induction pts generalizing N with
  | nil => rfl
  | cons p l ih =>
    obtain ⟨b1, b2, b3, b4, b5⟩ := a3 p (by simp)
    simp only [List.map_cons, tNorm, List.foldl_cons]
    rw [tNormPt_ok nsd axi a1 n m a2 epsR p ⟨b1, b2, fun ha => ⟨b3, b5 ha⟩⟩ b4 u th (hJ p (by simp)) (em p) (s p) (U p) (hem p (by simp))]
    simp only [Res.bind]
    exact ih (fun q hq => hJ q (by simp [hq])) (fun q hq => hem q (by simp [hq])) _ (fun q hq => a3 q (by simp [hq]))

/-- C117: the norms of a three-field element are those of the stresses and strain energy of its modified deformation gradients, in the volume given by the volume change field. The material is given the strains of the
displacement field. -/
theorem C117_triple_norms (nsd : Nat) (axi : Bool) (n m : Nat) (epsR : ℝ) (pts : List TPt) (hE : TrOk nsd axi n m epsR pts) (em : TPt → EMat) (u : Nat → Nat → ℝ) (th : Nat → ℝ) (hJ : ∀ p ∈ pts, mxJ nsd axi n (tq p) u ≠ 0)
    (s : TPt → Nat → ℝ) (U T : TPt → ℝ) (hT : ∀ p, T p = 1 + ∑ b ∈ Finset.range m, p.N2.e (b + 1) * th (b + 1))
    (hem : ∀ p ∈ pts, ∀ F E, kinUL nsd axi ⟨nsd * n, dofVec nsd u⟩ p.pt epsR = .ok (F, E) → em p (fun i j => |T p / mxJ nsd axi n (tq p) u| ^ ((1 : ℝ) / 3) * mxF nsd axi n (tq p) u i j) E = .ok (s p, U p)) :
    ∃ N, tNorm nsd axi epsR ⟨nsd * n, dofVec nsd u⟩ ⟨m, th⟩ (pts.map fun p => (p, em p)) NormUL.Norms.zero = .ok N ∧ NormsOf N pts (fun p => mwt axi (tq p)) U T (fun p => symT 3 false (s p)) := by
  have e : T = fun p => 1 + tval m p th := funext hT
  have h := total_norms pts (fun p => mwt axi (tq p)) U T (fun p => symSolid (s p)) (fun p => symT 3 false (s p)) fun p hp => ⟨.inl (solid_sym _), by simp [symT], by simp [symT], by simp [symT]⟩
  refine ⟨_, ?_, h⟩
  subst e
  exact tNorm_run nsd axi n m epsR pts hE em u th hJ s U hem _

/-- C117: where the forces of the pressures vanish, the energy reported for a three-field element is the value of the potential of its coupled forces (C115), and the reported volume is that of the deformed element. -/
theorem C117_triple_equilibrium (nsd : Nat) (axi : Bool) (n m : Nat) (tol epsR : ℝ) (pts : List TPt) (hE : TrOk nsd axi n m epsR pts) (sig : TPt → (Nat → Nat → ℝ) → Nat → ℝ) (c : TPt → (Nat → Nat → ℝ) → DMat ℝ)
    (hmat : ∀ p ∈ pts, ∀ F E, (lead 3 F).det ≠ 0 → p.mat F E = .ok (c p F, sig p F)) (W : TPt → (Nat → Nat → ℝ) → ℝ) (em : TPt → EMat) (hem : ∀ p ∈ pts, ∀ F E, (lead 3 F).det ≠ 0 → em p F E = .ok (sig p F, W p F))
    (u : Nat → Nat → ℝ) (th pr : Nat → ℝ) (hS : ∀ p ∈ pts, Strained nsd axi n m tol epsR p u th) :
    ∃ (A : DMat ℝ) (f : DVec ℝ) (N : NormUL.Norms ℝ), tElement nsd axi tol epsR n m ⟨nsd * n, dofVec nsd u⟩ ⟨m, th⟩ ⟨m, pr⟩ pts = .ok (A, f) ∧
      tNorm nsd axi epsR ⟨nsd * n, dofVec nsd u⟩ ⟨m, th⟩ (pts.map fun p => (p, em p)) NormUL.Norms.zero = .ok N ∧
      (f.dot (coupled (nsd * n) (dofVec nsd fun _ _ => 0) (fun _ => 0) pr) = 0 → N.energy = (pts.map fun p => mwt axi (tq p) * (W p (tFb nsd axi n p u (1 + tval m p th)) + tval m p pr * (mxJ nsd axi n (tq p) u - (1 + tval m p th)))).sum) ∧
      ∀ z, (∀ p ∈ pts, ∑ b ∈ Finset.range m, p.N2.e (b + 1) * z (b + 1) = 1) → f.dot (coupled (nsd * n) (dofVec nsd fun _ _ => 0) (fun _ => 0) z) = 0 → N.vol = (pts.map fun p => mwt axi (tq p) * mxJ nsd axi n (tq p) u).sum := by
  obtain ⟨A, f, e1, -, e2⟩ := C115_forces nsd axi n m tol epsR pts hE sig c hmat u th pr hS
  have hf : ∀ z, f.dot (coupled (nsd * n) (dofVec nsd fun _ _ => 0) (fun _ => 0) z) = -(pts.map fun p => mwt axi (tq p) * ((mxJ nsd axi n (tq p) u - (1 + tval m p th)) * tval m p z)).sum := by
    intro z
    rw [e2 (fun _ _ => 0) (fun _ => 0) z (fun _ _ _ => 0) _ _ _ _ _ (fun _ => rfl) (fun _ => rfl) (fun _ => rfl) (fun _ => rfl) (fun _ => rfl) (fun p hp i j hi hj => by simp [mRef, tens, grad, val])]
    refine congrArg Neg.neg (map_sum_congr _ _ _ fun p hp => ?_)
    simp only [mul_zero, Finset.sum_const_zero, zero_add]
    rfl
  obtain ⟨N, n1, n2⟩ := C117_triple_norms nsd axi n m epsR pts hE em u th (fun p hp => (hS p hp).2.1) (fun p => sig p (tFb nsd axi n p u (1 + tval m p th))) (fun p => W p (tFb nsd axi n p u (1 + tval m p th)))
    (fun p => 1 + tval m p th) (fun p => rfl) fun p hp F E _ => hem p hp _ E (tFb_det nsd axi n p u _ (hS p hp).2.1 (hS p hp).2.2.1)
  refine ⟨A, f, N, e1, n1, fun h => ?_, fun z hz h => ?_⟩
  · rw [hf, neg_eq_zero] at h
    rw [n2.energy, ← add_zero (List.sum _), ← h, ← map_sum_add]
    exact map_sum_congr _ _ _ fun p hp => by ring
  · rw [hf, neg_eq_zero] at h
    rw [n2.vol, ← add_zero (List.sum _), ← h, ← map_sum_add]
    refine map_sum_congr _ _ _ fun p hp => ?_
    rw [show tval m p z = 1 from hz p hp]
    ring

/-- The stretched ring of C115 with the volume change of its deformation: strained, and the forces of all pressures vanish. -/
example : TrOk 2 true 3 1 0 [tri1 1 1] ∧ Strained 2 true 3 1 (1 / 10) 0 (tri1 1 1) (fun a i => if a = 2 ∧ i = 1 then 1 else 0) (fun _ => 5 / 3) ∧
    (∀ F E, (tri1 1 1).mat F E = .ok (neoC 1 1 F, neo3 1 1 F)) ∧ mxJ 2 true 3 (tq (tri1 1 1)) (fun a i => if a = 2 ∧ i = 1 then 1 else 0) - (1 + tval 1 (tri1 1 1) (fun _ => 5 / 3)) = 0 := by
  have hJ : mxJ 2 true 3 (tq (tri1 1 1)) (fun a i => if a = 2 ∧ i = 1 then 1 else 0) = 8 / 3 := by
    simp [mxJ, Matrix.det_fin_three, lead, mxF, mRef, tens, grad, val, tq, tri1, triangle, Finset.sum_range_succ]
    norm_num
  refine ⟨tri1_ok 1 1 0 one_pos true, ⟨fun _ => ⟨le_refl _, ?_⟩, by rw [hJ]; norm_num, ?_, 1, by omega, by omega, ?_⟩, fun _ _ => rfl, ?_⟩
  · simp [tri1, triangle, Finset.sum_range_succ]; norm_num
  · simp [tri1]; norm_num
  · simp [greenV, engineering, eng2, green, defF, grad, tri1, triangle, Finset.sum_range_succ]; norm_num [abs_of_pos, abs_of_neg]
  · rw [hJ]
    simp [tval, tri1]
    norm_num

/-! ### F-bar element -/

theorem fbNormJ_ok (d n : Nat) (smp : List (FPt ℝ)) (Nb : List ℝ) (hl : Nb.length = smp.length) (u : Nat → Nat → ℝ) (J : ℝ) :
    fbNormJ (vols d n smp u) Nb J = .ok (meanRatio (smp.map fun s => ratio d (grad n u s.dN.e)) Nb J) := by
  rcases smp with _ | ⟨s, _ | ⟨s', l⟩⟩
  · rfl
  · rfl
  · have h := sum_ratio d n (s :: s' :: l) Nb u
    have e : fbNormJ (vols d n (s :: s' :: l) u) Nb J = if (vols d n (s :: s' :: l) u).length < Nb.length then .ub else .ok (((vols d n (s :: s' :: l) u).zip Nb).map fun v => v.1.J * v.2).sum := rfl
    rw [e, if_neg (by simp [vols]; simp at hl; omega), h]
    rfl

/-- The volume ratio used at an integration point of an F-bar element. -/
noncomputable def barJ (d n : Nat) (smp : List (FPt ℝ)) (Nb : List ℝ) (dN : DMat ℝ) (u : Nat → Nat → ℝ) : ℝ :=
  meanRatio (smp.map fun s => ratio d (grad n u s.dN.e)) Nb (ratio d (grad n u dN.e))

theorem fbNormPts_ok (d : Nat) (hd : d = 2 ∨ d = 3) (n : Nat) (hn : 0 < n) (ps : Bool) (epsR : ℝ) (smp : List (FPt ℝ)) (pts : List (FPt ℝ × EMat × List ℝ)) (u : Nat → Nat → ℝ)
    (hp : ∀ p ∈ pts, p.1.dN.nr = n ∧ p.1.dN.nc = d ∧ p.2.2.length = smp.length ∧ ratio d (grad n u p.1.dN.e) ≠ 0) (s : FPt ℝ × EMat × List ℝ → Nat → ℝ) (U : FPt ℝ × EMat × List ℝ → ℝ)
    (hem : ∀ p ∈ pts, p.2.1 (scaledF d (grad n u p.1.dN.e) (barJ d n smp p.2.2 p.1.dN u)) (greenV d (grad n u p.1.dN.e)) = .ok (s p, U p)) (N : NormUL.Norms ℝ) :
    fbNormPts d false ps epsR (vols d n smp u) ⟨d * n, dofVec d u⟩ pts N
      = .ok ((pts.map fun p => (⟨symFbar d ps (s p), U p, ratio d (grad n u p.1.dN.e), p.1.w⟩ : NormUL.Pt ℝ)).foldl (fun n p => NormUL.evalInt n p.S p.U p.J p.w) N) := by
  induction pts generalizing N with
  | nil => rfl
  | cons p l ih =>
    obtain ⟨a1, a2, a3, a4⟩ := hp p (by simp)
    have hk := kinUL_ok d hd p.1 epsR (by omega) a2 u
    rw [a1] at hk
    have hm := hem p (by simp)
    simp only [fbNormPts, List.map_cons, List.foldl_cons]
    have e : fbNormPt d false ps epsR (vols d n smp u) ⟨d * n, dofVec d u⟩ p.1 p.2.1 p.2.2 N = .ok (NormUL.evalInt N (symFbar d ps (s p)) (U p) (ratio d (grad n u p.1.dN.e)) p.1.w) := by
      unfold fbNormPt
      rw [hk]
      have hj := fbNormJ_ok d n smp p.2.2 a3 u (ratio d (grad n u p.1.dN.e))
      refine (congrArg (fun r => Res.bind r _) hj).trans ?_
      have h4 : ¬ (lead d (defF d (grad n u p.1.dN.e))).det = 0 := a4
      refine (if_neg h4).trans ?_
      have hF : scaledF d (grad n u p.1.dN.e) (barJ d n smp p.2.2 p.1.dN u) = fun i j => defF d (grad n u p.1.dN.e) i j *
          |meanRatio (smp.map fun s => ratio d (grad n u s.dN.e)) p.2.2 (lead d (defF d (grad n u p.1.dN.e))).det / (lead d (defF d (grad n u p.1.dN.e))).det| ^ ((1 : ℝ) / (d : ℝ)) := by
        funext i j
        exact mul_comm _ _
      rw [hF] at hm
      exact congrArg (fun r => Res.bind r _) hm
    rw [e]
    exact ih (fun q hq => hp q (by simp [hq])) (fun q hq => hem q (by simp [hq])) _

/-- C117: the norms of an F-bar element are those of the stresses and strain energy of its modified deformation gradients, but in the volume of the deformation itself. In the plane this needs the out-of-plane stress
of plane strain. -/
theorem C117_fbar_norms (d : Nat) (hd : d = 2 ∨ d = 3) (n : Nat) (hn : 0 < n) (ps : Bool) (tol epsR : ℝ) (smp : List (FPt ℝ)) (pts : List (FPt ℝ × EMat × List ℝ)) (u : Nat → Nat → ℝ)
    (hsmp : ∀ s ∈ smp, s.dN.nr = n ∧ s.dN.nc = d ∧ (∃ i, 1 ≤ i ∧ i ≤ d * (d + 1) / 2 ∧ tol < |greenV d (grad n u s.dN.e) i|) ∧ ratio d (grad n u s.dN.e) ≠ 0)
    (hp : ∀ p ∈ pts, p.1.dN.nr = n ∧ p.1.dN.nc = d ∧ p.2.2.length = smp.length ∧ ratio d (grad n u p.1.dN.e) ≠ 0) (s : FPt ℝ × EMat × List ℝ → Nat → ℝ) (U : FPt ℝ × EMat × List ℝ → ℝ)
    (hem : ∀ p ∈ pts, p.2.1 (scaledF d (grad n u p.1.dN.e) (barJ d n smp p.2.2 p.1.dN u)) (greenV d (grad n u p.1.dN.e)) = .ok (s p, U p)) :
    ∃ N, fbNorm d false ps tol epsR smp ⟨d * n, dofVec d u⟩ pts = .ok N ∧ N.energy = (pts.map fun p => p.1.w * U p).sum ∧ N.vol = (pts.map fun p => p.1.w * ratio d (grad n u p.1.dN.e)).sum ∧
      (d = 3 → NormsOf N pts (fun p => p.1.w) U (fun p => ratio d (grad n u p.1.dN.e)) fun p => symT 3 false (s p)) ∧
      (d = 2 → ps = true → NormsOf N pts (fun p => p.1.w) U (fun p => ratio d (grad n u p.1.dN.e)) fun p => planeS (s p)) ∧
      (d = 2 → ps = false → N.stress = (pts.map fun p => p.1.w * ratio d (grad n u p.1.dN.e) * (s p 1 ^ 2 + s p 2 ^ 2 + 2 * s p 3 ^ 2)).sum) := by
  have hr := reduced_ok d hd n hn tol epsR u smp fun s hs => by
    obtain ⟨a, b, ⟨i, h1, h2, h3⟩, c⟩ := hsmp s hs
    refine ⟨a, b, ?_, c⟩
    rw [zeroStrain_iff]
    exact fun h => absurd (h i h1 h2) (not_le.mpr h3)
  have hrun := fbNormPts_ok d hd n hn ps epsR smp pts u hp s U hem NormUL.Norms.zero
  have key : ∀ N, N = NormUL.total (pts.map fun p => (⟨symFbar d ps (s p), U p, ratio d (grad n u p.1.dN.e), p.1.w⟩ : NormUL.Pt ℝ)) →
      N.energy = (pts.map fun p => p.1.w * U p).sum ∧ N.vol = (pts.map fun p => p.1.w * ratio d (grad n u p.1.dN.e)).sum := by
    intro N hN
    rw [hN, NormUL.total, NormUL.foldl_gen]
    simp only [NormUL.Norms.zero, zero_add, List.map_map, Function.comp_def]
    refine ⟨?_, ?_⟩ <;> first | trivial | exact map_sum_congr _ _ _ fun p hp => by ring
  refine ⟨_, ?_, (key _ rfl).1, (key _ rfl).2, fun h3 => ?_, fun h2 hps => ?_, fun h2 hps => ?_⟩
  · unfold fbNorm
    rw [hr]
    exact hrun
  · subst h3
    exact total_norms pts (fun p => p.1.w) U _ (fun p => symFbar 3 ps (s p)) (fun p => symT 3 false (s p)) fun p hp => ⟨.inl (by simp only [symFbar, if_true]; exact solid_sym _), by simp [symT], by simp [symT], by simp [symT]⟩
  · subst h2 hps
    exact total_norms pts (fun p => p.1.w) U _ (fun p => symFbar 2 true (s p)) (fun p => planeS (s p)) fun p hp => ⟨.inr ⟨by simp [symFbar, planeS], by simp [planeS], by simp [planeS]⟩, by simp [planeS], by simp [planeS], by simp [planeS]⟩
  · subst h2 hps
    rw [NormUL.total, NormUL.foldl_gen]
    simp only [NormUL.Norms.zero, zero_add, List.map_map, Function.comp_def]
    exact map_sum_congr _ _ _ fun p hp => by simp [symFbar, NormUL.Sym.dot]; ring

/-- C117: the norms of an axisymmetric F-bar element, in the volume of revolution of the deformation; the volume ratios `vol` of the sampling points are those of C113. -/
theorem C117_fbar_axi (n : Nat) (hn : 0 < n) (ps : Bool) (tol epsR : ℝ) (smp : List (FPt ℝ)) (pts : List (FPt ℝ × EMat × List ℝ)) (u : Nat → Nat → ℝ) (vol : List VolPt)
    (hr : reducedAll 2 true tol epsR ⟨2 * n, dofVec 2 u⟩ smp = .ok vol) (F : FPt ℝ → Nat → Nat → ℝ) (E : FPt ℝ → Nat → ℝ)
    (hp : ∀ p ∈ pts, kinUL 2 true ⟨2 * n, dofVec 2 u⟩ p.1 epsR = .ok (F p.1, E p.1) ∧ p.2.2.length = vol.length) (J : FPt ℝ → ℝ) (hJ : ∀ q, J q = (F q 1 1 * F q 2 2 - F q 1 2 * F q 2 1) * F q 3 3) (hJ0 : ∀ p ∈ pts, J p.1 ≠ 0)
    (s : FPt ℝ × EMat × List ℝ → Nat → ℝ) (U : FPt ℝ × EMat × List ℝ → ℝ)
    (hem : ∀ p ∈ pts, p.2.1 (fun i j => F p.1 i j * |meanRatio (vol.map (·.J)) p.2.2 (J p.1) / J p.1| ^ ((1 : ℝ) / 3)) (E p.1) = .ok (s p, U p)) :
    ∃ N, fbNorm 2 true ps tol epsR smp ⟨2 * n, dofVec 2 u⟩ pts = .ok N ∧ NormsOf N pts (fun p => 2 * Real.pi * p.1.X * p.1.w) U (fun p => J p.1) fun p => planeS (s p) := by
  have hdet : ∀ p ∈ pts, (lead 3 (F p.1)).det = J p.1 := by
    intro p h
    obtain ⟨k, -⟩ := hp p h
    have hz : F p.1 3 1 = 0 ∧ F p.1 3 2 = 0 := by
      unfold kinUL at k
      have hne : ¬ 2 * n = 0 := by omega
      rw [if_neg (by simpa using hne)] at k
      split at k
      · cases k
      · rename_i hc
        simp only [Res.ok.injEq, Prod.mk.injEq] at k
        rw [← k.1]
        simp [kinF, defGrad]
    rw [hJ, Matrix.det_fin_three]
    simp [lead, hz.1, hz.2]
    ring
  have hfJ : ∀ (Nb : List ℝ) (j : ℝ), Nb.length = vol.length → fbNormJ vol Nb j = .ok (meanRatio (vol.map (·.J)) Nb j) := by
    intro Nb j hl
    rcases vol with _ | ⟨v, _ | ⟨v', l⟩⟩
    · rfl
    · rfl
    · have e : fbNormJ (v :: v' :: l) Nb j = if (v :: v' :: l).length < Nb.length then .ub else .ok (((v :: v' :: l).zip Nb).map fun v => v.1.J * v.2).sum := rfl
      rw [e, if_neg (by omega)]
      refine congrArg Res.ok ?_
      show _ = ((((v :: v' :: l).map (·.J)).zip Nb).map fun x => x.1 * x.2).sum
      rw [List.zip_map_left, List.map_map]
      rfl
  have hrun : ∀ l : List (FPt ℝ × EMat × List ℝ), (∀ p ∈ l, p ∈ pts) → ∀ N, fbNormPts 2 true ps epsR vol ⟨2 * n, dofVec 2 u⟩ l N
      = .ok ((l.map fun p => (⟨symFbar 2 true (s p), U p, J p.1, 2 * Real.pi * p.1.X * p.1.w⟩ : NormUL.Pt ℝ)).foldl (fun n p => NormUL.evalInt n p.S p.U p.J p.w) N) := by
    intro l hl
    induction l with
    | nil => intro N; rfl
    | cons p l ih =>
      intro N
      have h := hl p (by simp)
      obtain ⟨k, hlen⟩ := hp p h
      have e : fbNormPt 2 true ps epsR vol ⟨2 * n, dofVec 2 u⟩ p.1 p.2.1 p.2.2 N = .ok (NormUL.evalInt N (symFbar 2 true (s p)) (U p) (J p.1) (2 * Real.pi * p.1.X * p.1.w)) := by
        unfold fbNormPt
        rw [k]
        have hd' : (lead (if true = true then 3 else 2) (F p.1)).det = J p.1 := hdet p h
        simp only [Res.bind, if_true, Bool.true_or]
        rw [hd', hfJ p.2.2 (J p.1) hlen]
        simp only []
        rw [if_neg (hJ0 p h)]
        have hm := hem p h
        have hc : ((3 : ℕ) : ℝ) = 3 := by norm_num
        rw [hc, hm]
      simp only [fbNormPts, List.map_cons, List.foldl_cons]
      rw [e]
      exact ih (fun q hq => hl q (by simp [hq])) _
  refine ⟨_, ?_, total_norms pts (fun p => 2 * Real.pi * p.1.X * p.1.w) U (fun p => J p.1) (fun p => symFbar 2 true (s p)) (fun p => planeS (s p)) fun p hp => ⟨.inr ⟨by simp [symFbar, planeS], by simp [planeS], by simp [planeS]⟩, by simp [planeS], by simp [planeS], by simp [planeS]⟩⟩
  unfold fbNorm
  rw [hr]
  exact hrun pts (fun _ h => h) _

/-- A stretched ring, without sampling points. -/
example : ∃ F E, reducedAll 2 true (1 / 10) 0 ⟨2 * 3, dofVec 2 fun a i => if a = 2 ∧ i = 1 then 1 else 0⟩ [] = .ok [] ∧ kinUL 2 true ⟨2 * 3, dofVec 2 fun a i => if a = 2 ∧ i = 1 then 1 else 0⟩ triangle (0 : ℝ) = .ok (F, E) ∧
    (F 1 1 * F 2 2 - F 1 2 * F 2 1) * F 3 3 ≠ 0 := by
  refine ⟨_, _, rfl, rfl, ?_⟩
  simp [kinF, defGrad, triangle, dofVec, Finset.sum_range_succ]
  norm_num

/-- C117: what the energy of an F-bar element lacks to be the potential of its forces. In a motion `x` with velocity gradients `g` the volume ratios `J̄` of the integration points change by `D`; then the energy changes by the
work of the internal forces, and by `(J̄ - J) σ : g + (tr σ / d) (D - J̄ tr g)` at each point. -/
theorem C117_fbar_rate (d : Nat) (hd : d = 2 ∨ d = 3) (n : Nat) (hn : 0 < n) (ps : Bool) (tol epsR : ℝ) (smp : List (FPt ℝ)) (pts : List (FPt ℝ × Mat ℝ × List ℝ)) (u x : Nat → Nat → ℝ)
    (sig : Mat ℝ → (Nat → Nat → ℝ) → Nat → ℝ) (W : Mat ℝ → (Nat → Nat → ℝ) → ℝ) (em : Mat ℝ → EMat) (s : Mat ℝ → (Nat → Nat → ℝ) → Nat → ℝ)
    (hsmp : ∀ s ∈ smp, s.dN.nr = n ∧ s.dN.nc = d ∧ (∃ i, 1 ≤ i ∧ i ≤ d * (d + 1) / 2 ∧ tol < |greenV d (grad n u s.dN.e) i|) ∧ ratio d (grad n u s.dN.e) ≠ 0)
    (hp : ∀ p ∈ pts, p.1.dN.nr = n ∧ p.1.dN.nc = d ∧ p.2.2.length = smp.length ∧ (∃ i, 1 ≤ i ∧ i ≤ d * (d + 1) / 2 ∧ tol < |greenV d (grad n u p.1.dN.e) i|) ∧ 0 < ratio d (grad n u p.1.dN.e) ∧
      0 < meanRatio (smp.map fun s => ratio d (grad n u s.dN.e)) p.2.2 (ratio d (grad n u p.1.dN.e)) ∧ (∃ c, Truesdell d p.2.1 (sig p.2.1) c) ∧ EnergyD d (W p.2.1) (sig p.2.1) ∧
      ∀ F E, em p.2.1 F E = .ok (s p.2.1 F, W p.2.1 F))
    (g : FPt ℝ → Nat → Nat → ℝ)
    (hg : ∀ p ∈ pts, ∀ i r, i < d → r < d → ∑ l ∈ Finset.range d, g p.1 (i + 1) (l + 1) * defF d (grad n u p.1.dN.e) (l + 1) (r + 1) = grad n x p.1.dN.e (i + 1) (r + 1))
    (D : FPt ℝ × Mat ℝ × List ℝ → ℝ)
    (hD : ∀ p ∈ pts, HasDerivAt (fun t => meanRatio (smp.map fun s => ratio d (grad n (along u x t) s.dN.e)) p.2.2 (ratio d (grad n (along u x t) p.1.dN.e))) (D p) 0)
    (Jb : FPt ℝ × Mat ℝ × List ℝ → ℝ) (hJb : ∀ p, Jb p = meanRatio (smp.map fun s => ratio d (grad n u s.dN.e)) p.2.2 (ratio d (grad n u p.1.dN.e)))
    (S : FPt ℝ × Mat ℝ × List ℝ → Nat → Nat → ℝ) (hS : ∀ p, S p = symT d false (sig p.2.1 (scaledF d (grad n u p.1.dN.e) (Jb p)))) :
    ∃ (A : DMat ℝ) (f : DVec ℝ) (N : ℝ → NormUL.Norms ℝ), fbarElement d false tol epsR smp ⟨d * n, dofVec d u⟩ pts (DMat.zero (d * n) (d * n), DVec.zero (d * n)) = .ok (A, f) ∧
      (∀ᶠ t in 𝓝 (0 : ℝ), fbNorm d false ps tol epsR smp ⟨d * n, dofVec d (along u x t)⟩ (pts.map fun p => (p.1, em p.2.1, p.2.2)) = .ok (N t)) ∧
      HasDerivAt (fun t => (N t).energy) (-f.dot (dofVec d x) + (pts.map fun p => p.1.w * ((Jb p - ratio d (grad n u p.1.dN.e)) * (∑ i ∈ Finset.range d, ∑ j ∈ Finset.range d, S p (i + 1) (j + 1) * g p.1 (i + 1) (j + 1))
        + (∑ i ∈ Finset.range d, S p (i + 1) (i + 1)) / d * (D p - Jb p * ∑ i ∈ Finset.range d, g p.1 (i + 1) (i + 1)))).sum) 0 := by
  obtain ⟨A, f, e1, e2⟩ := C113_forces d hd n hn tol epsR smp pts u sig hsmp fun p h => by
    obtain ⟨a1, a2, a3, a4, a5, a6, a7, -⟩ := hp p h
    exact ⟨a1, a2, a3, a4, a5.ne', a6.ne', a7⟩
  have hwork := e2 x g hg
  have hdr : (d : ℝ) ≠ 0 := by rcases hd with h | h <;> rw [h] <;> norm_num
  -- the norms nearby
  have hev : ∀ᶠ t in 𝓝 (0 : ℝ), (∀ s ∈ smp, ¬ zeroStrain tol (d * (d + 1) / 2) (greenV d (grad n (along u x t) s.dN.e)) = true ∧ ratio d (grad n (along u x t) s.dN.e) ≠ 0) ∧
      ∀ p ∈ pts, ratio d (grad n (along u x t) p.1.dN.e) ≠ 0 := by
    refine (ev_list _ _ fun s hs => ?_).and (ev_list _ _ fun p h => ratio_near d hd n p.1.dN u x (hp p h).2.2.2.2.1.ne')
    exact (strained_near d hd n tol s.dN u x (hsmp s hs).2.2.1).and (ratio_near d hd n s.dN u x (hsmp s hs).2.2.2)
  have hN : ∀ᶠ t in 𝓝 (0 : ℝ), ∃ N, fbNorm d false ps tol epsR smp ⟨d * n, dofVec d (along u x t)⟩ (pts.map fun p => (p.1, em p.2.1, p.2.2)) = .ok N ∧
      N.energy = (pts.map fun p => p.1.w * W p.2.1 (scaledF d (grad n (along u x t) p.1.dN.e) (barJ d n smp p.2.2 p.1.dN (along u x t)))).sum := by
    filter_upwards [hev] with t ⟨h1, h2⟩
    have hr := reduced_ok d hd n hn tol epsR (along u x t) smp fun s hs => ⟨(hsmp s hs).1, (hsmp s hs).2.1, (h1 s hs).1, (h1 s hs).2⟩
    have hrun : ∀ l : List (FPt ℝ × Mat ℝ × List ℝ), (∀ p ∈ l, p ∈ pts) → ∀ N0, ∃ N, fbNormPts d false ps epsR (vols d n smp (along u x t)) ⟨d * n, dofVec d (along u x t)⟩ (l.map fun p => (p.1, em p.2.1, p.2.2)) N0 = .ok N ∧
        N.energy = N0.energy + (l.map fun p => p.1.w * W p.2.1 (scaledF d (grad n (along u x t) p.1.dN.e) (barJ d n smp p.2.2 p.1.dN (along u x t)))).sum := by
      intro l hl
      induction l with
      | nil => exact fun N0 => ⟨N0, rfl, by simp⟩
      | cons p l ih =>
        intro N0
        have hm := hl p (by simp)
        obtain ⟨a1, a2, a3, a4, a5, a6, a7, a8, a9⟩ := hp p hm
        have h1p := fbNormPts_ok d hd n hn ps epsR smp [(p.1, em p.2.1, p.2.2)] (along u x t) (by simpa using ⟨a1, a2, a3, h2 p hm⟩)
          (fun _ => s p.2.1 (scaledF d (grad n (along u x t) p.1.dN.e) (barJ d n smp p.2.2 p.1.dN (along u x t)))) (fun _ => W p.2.1 (scaledF d (grad n (along u x t) p.1.dN.e) (barJ d n smp p.2.2 p.1.dN (along u x t))))
          (by simp [a9]) N0
        simp only [fbNormPts, List.map_cons, List.map_nil, List.foldl_cons, List.foldl_nil] at h1p
        have h1q : fbNormPt d false ps epsR (vols d n smp (along u x t)) ⟨d * n, dofVec d (along u x t)⟩ p.1 (em p.2.1) p.2.2 N0 = .ok (NormUL.evalInt N0 (symFbar d ps (s p.2.1 (scaledF d (grad n (along u x t) p.1.dN.e) (barJ d n smp p.2.2 p.1.dN (along u x t)))))
            (W p.2.1 (scaledF d (grad n (along u x t) p.1.dN.e) (barJ d n smp p.2.2 p.1.dN (along u x t)))) (ratio d (grad n (along u x t) p.1.dN.e)) p.1.w) := by
          revert h1p
          generalize fbNormPt d false ps epsR (vols d n smp (along u x t)) ⟨d * n, dofVec d (along u x t)⟩ p.1 (em p.2.1) p.2.2 N0 = r
          cases r <;> simp [Res.bind]
        obtain ⟨N, k1, k2⟩ := ih (fun q hq => hl q (by simp [hq])) (NormUL.evalInt N0 (symFbar d ps (s p.2.1 (scaledF d (grad n (along u x t) p.1.dN.e) (barJ d n smp p.2.2 p.1.dN (along u x t)))))
            (W p.2.1 (scaledF d (grad n (along u x t) p.1.dN.e) (barJ d n smp p.2.2 p.1.dN (along u x t)))) (ratio d (grad n (along u x t) p.1.dN.e)) p.1.w)
        refine ⟨N, ?_, ?_⟩
        · simp only [List.map_cons, fbNormPts]
          rw [h1q]
          exact k1
        · rw [k2, List.map_cons, List.sum_cons]
          simp only [NormUL.evalInt]
          ring
    obtain ⟨N, k1, k2⟩ := hrun pts (fun _ h => h) NormUL.Norms.zero
    refine ⟨N, ?_, by rw [k2]; simp [NormUL.Norms.zero]⟩
    unfold fbNorm
    rw [hr]
    exact k1
  classical
  refine ⟨A, f, fun t => if h : ∃ N, fbNorm d false ps tol epsR smp ⟨d * n, dofVec d (along u x t)⟩ (pts.map fun p => (p.1, em p.2.1, p.2.2)) = .ok N ∧
      N.energy = (pts.map fun p => p.1.w * W p.2.1 (scaledF d (grad n (along u x t) p.1.dN.e) (barJ d n smp p.2.2 p.1.dN (along u x t)))).sum then h.choose else NormUL.Norms.zero, e1, ?_, ?_⟩
  · filter_upwards [hN] with t ht
    rw [dif_pos ht]
    exact ht.choose_spec.1
  have hder : HasDerivAt (fun t => (pts.map fun p => p.1.w * W p.2.1 (scaledF d (grad n (along u x t) p.1.dN.e) (barJ d n smp p.2.2 p.1.dN (along u x t)))).sum)
      (pts.map fun p => p.1.w * (Jb p * ((∑ i ∈ Finset.range d, ∑ j ∈ Finset.range d, S p (i + 1) (j + 1) * g p.1 (i + 1) (j + 1)) + (∑ i ∈ Finset.range d, S p (i + 1) (i + 1)) / d * (D p / Jb p - ∑ i ∈ Finset.range d, g p.1 (i + 1) (i + 1))))).sum 0 := by
    refine list_deriv _ _ _ fun p hpm => ?_
    obtain ⟨a1, a2, a3, a4, a5, a6, a7, a8, a9⟩ := hp p hpm
    have hb : Jb p ≠ 0 := by rw [hJb]; exact a6.ne'
    have h0 : barJ d n smp p.2.2 p.1.dN (along u x 0) = Jb p := by rw [hJb, along_zero]; rfl
    have hpath : ∀ i j, i < d → j < d → HasDerivAt (fun t => defF d (grad n (along u x t) p.1.dN.e) (i + 1) (j + 1)) (∑ k ∈ Finset.range d, g p.1 (i + 1) (k + 1) * defF d (grad n (along u x 0) p.1.dN.e) (k + 1) (j + 1)) 0 := by
      intro i j hi hj
      refine (path_deriv d n p.1.dN u x a5.ne' i j hi hj).congr_deriv ?_
      rw [along_zero, pushGrad_mul d _ a5.ne' n p.1.dN x (i + 1) j hj, hg p hpm i j hi hj]
    have hM : tr d (fun i j => if i = j then D p / Jb p / d else 0) = D p / Jb p := by
      unfold tr
      simp only [if_true, Finset.sum_const, Finset.card_range, nsmul_eq_mul]
      field_simp
    have hJ0 : (lead d (defF d (grad n (along u x 0) p.1.dN.e))).det ≠ 0 := by rw [along_zero]; exact a5.ne'
    have hsc := scaled_deriv d hd (fun t => defF d (grad n (along u x t) p.1.dN.e)) (g p.1) (fun i j => if i = j then D p / Jb p / d else 0) (fun t => barJ d n smp p.2.2 p.1.dN (along u x t)) hJ0 (by rw [h0]; exact hb) hpath
      ((hD p hpm).congr_deriv (by rw [hM, h0]; field_simp))
    have hdet : (lead d (scaledF d (grad n (along u x 0) p.1.dN.e) (barJ d n smp p.2.2 p.1.dN (along u x 0)))).det = Jb p := by
      rw [h0, along_zero]
      exact C113_volume d hd _ _ (div_pos (by rw [hJb]; exact a6) a5)
    have hE := a8 (fun t => scaledF d (grad n (along u x t) p.1.dN.e) (barJ d n smp p.2.2 p.1.dN (along u x t))) (barRate d (g p.1) fun i j => if i = j then D p / Jb p / d else 0) (by rw [hdet]; exact hb) hsc
    refine (hE.const_mul p.1.w).congr_deriv ?_
    rw [hdet, h0, along_zero, ← hS]
    refine congrArg (p.1.w * ·) (congrArg (Jb p * ·) ?_)
    unfold barRate
    rw [hM]
    generalize S p = σ
    unfold tr
    rcases hd with e | e <;> subst e
    · simp [Finset.sum_range_succ]; ring
    · simp [Finset.sum_range_succ]; ring
  refine (hder.congr_of_eventuallyEq ?_).congr_deriv ?_
  · filter_upwards [hN] with t ht
    rw [dif_pos ht]
    exact ht.choose_spec.2
  · rw [hwork, neg_neg, ← map_sum_add]
    refine map_sum_congr _ _ _ fun p hpm => ?_
    have hb : Jb p ≠ 0 := by rw [hJb]; exact (hp p hpm).2.2.2.2.2.1.ne'
    rw [← hJb p, ← hS]
    field_simp
    ring

/-- Strain energy of the material `hooke2`. -/
noncomputable def hookeW (mu : ℝ) (F : Nat → Nat → ℝ) : ℝ :=
  mu / 2 * (F 1 1 * F 1 1 + F 1 2 * F 1 2 + (F 2 1 * F 2 1 + F 2 2 * F 2 2) - 2) - mu * Real.log (lead 2 F).det + ((lead 2 F).det - 1) * ((lead 2 F).det - 1) / 2

theorem hookeW_ok (mu : ℝ) : EnergyD 2 (hookeW mu) (hooke2 mu) := by
  intro P L hP h
  have hdet := det_deriv 2 (.inl rfl) P L h
  have h00 := h 0 0 (by omega) (by omega); have h01 := h 0 1 (by omega) (by omega); have h10 := h 1 0 (by omega) (by omega); have h11 := h 1 1 (by omega) (by omega)
  simp only [Finset.sum_range_succ, Finset.sum_range_zero, zero_add] at h00 h01 h10 h11
  have e := (((((h00.mul h00).add (h01.mul h01)).add ((h10.mul h10).add (h11.mul h11))).sub_const 2).const_mul (mu / 2)).sub ((hdet.log hP).const_mul mu) |>.add (((hdet.sub_const 1).mul (hdet.sub_const 1)).div_const 2)
  refine e.congr_deriv ?_
  have hd2 : (lead 2 (P 0)).det = P 0 1 1 * P 0 2 2 - P 0 1 2 * P 0 2 1 := by simp [Matrix.det_fin_two, lead]
  simp only [symT, hooke2, tr, Finset.sum_range_succ, Finset.sum_range_zero, zero_add, Nat.reduceAdd]
  generalize (lead 2 (P 0)).det = D at *
  simp
  field_simp
  ring

/-- The stresses of an isochoric modified gradient. -/
theorem hooke2_bar (mu : ℝ) (H : Nat → Nat → ℝ) (hJ : 0 < ratio 2 H) :
    hooke2 mu (scaledF 2 H 1) 1 = mu * (((1 + H 1 1) * (1 + H 1 1) + H 1 2 * H 1 2) / ratio 2 H - 1) ∧ hooke2 mu (scaledF 2 H 1) 2 = mu * ((H 2 1 * H 2 1 + (1 + H 2 2) * (1 + H 2 2)) / ratio 2 H - 1) ∧
      hooke2 mu (scaledF 2 H 1) 3 = mu * (((1 + H 1 1) * H 2 1 + H 1 2 * (1 + H 2 2)) / ratio 2 H) := by
  have hdet : (lead 2 (scaledF 2 H 1)).det = 1 := C113_volume 2 (.inl rfl) H 1 (by positivity)
  have hc : |1 / ratio 2 H| ^ ((1 : ℝ) / (2 : ℕ)) * |1 / ratio 2 H| ^ ((1 : ℝ) / (2 : ℕ)) = 1 / ratio 2 H := by
    rw [← Real.rpow_add (by positivity)]
    norm_num
    exact hJ.le
  unfold hooke2
  rw [hdet]
  unfold scaledF
  generalize |1 / ratio 2 H| ^ ((1 : ℝ) / (2 : ℕ)) = c at hc
  refine ⟨?_, ?_, ?_⟩
  · simp [defF]
    left
    linear_combination ((1 + H 1 1) * (1 + H 1 1) + H 1 2 * H 1 2) * hc
  · simp [defF]
    left
    linear_combination (H 2 1 * H 2 1 + (1 + H 2 2) * (1 + H 2 2)) * hc
  · simp [defF]
    left
    linear_combination ((1 + H 1 1) * H 2 1 + H 1 2 * (1 + H 2 2)) * hc

/-- The nodal displacements of `u_x = y (1 + x)`, `u_y = 0`. -/
def shearU (i k : Nat) : ℝ := if k = 1 then (if i = 2 then -2 else if i = 4 then 2 else 0) else 0

/-- Those of `u_x = x y`, `u_y = 0`. -/
def shearV (i k : Nat) : ℝ := if k = 1 then (if i = 1 ∨ i = 4 then 1 else -1) else 0

/-- The velocity gradients of the latter in the configuration of the former. -/
noncomputable def shearG (q : FPt ℝ) (i j : Nat) : ℝ :=
  if i = 1 then (if j = 1 then grad 4 shearV q.dN.e 1 1 / (1 + grad 4 shearU q.dN.e 1 1) else grad 4 shearV q.dN.e 1 2 - grad 4 shearV q.dN.e 1 1 * grad 4 shearU q.dN.e 1 2 / (1 + grad 4 shearU q.dN.e 1 1)) else 0

theorem shear_grad (b c w : ℝ) : grad 4 shearU (square b c w).dN.e 1 1 = c ∧ grad 4 shearU (square b c w).dN.e 1 2 = 1 + b ∧ grad 4 shearU (square b c w).dN.e 2 1 = 0 ∧ grad 4 shearU (square b c w).dN.e 2 2 = 0 ∧
    grad 4 shearV (square b c w).dN.e 1 1 = c ∧ grad 4 shearV (square b c w).dN.e 1 2 = b ∧ grad 4 shearV (square b c w).dN.e 2 1 = 0 ∧ grad 4 shearV (square b c w).dN.e 2 2 = 0 := by
  refine ⟨?_, ?_, ?_, ?_, ?_, ?_, ?_, ?_⟩ <;> simp [grad, shearU, shearV, square, Finset.sum_range_succ] <;> ring

theorem shear_less (a w mu : ℝ) (h0 : 0 < a) (h1 : a < 1) (hw : 0 < w) (hmu : 0 < mu) : 8 * w * mu * a ^ 2 < 12 * w * mu * a ^ 2 / (1 - a ^ 2) ^ 2 := by
  have p3 : 0 < 1 - a ^ 2 := by nlinarith
  have p4 : (1 - a ^ 2) ^ 2 ≤ 1 := pow_le_one₀ p3.le (by nlinarith)
  rw [lt_div_iff₀ (by positivity)]
  have : 0 < w * mu * a ^ 2 := by positivity
  calc 8 * w * mu * a ^ 2 * (1 - a ^ 2) ^ 2 ≤ 8 * w * mu * a ^ 2 * 1 := mul_le_mul_of_nonneg_left p4 (by positivity)
    _ < 12 * w * mu * a ^ 2 := by linarith

set_option maxHeartbeats 2000000 in
/-- C117: the energy reported for an F-bar element is no potential of its internal forces, although the material has a strain energy whose stresses are those of the forces: the square with the volume change sampled in its
centre and two by two integration points. The motion `x y` from the displacements `y (1 + x)` leaves the volume in the centre unchanged. -/
theorem C117_fbar_violated (a w mu tol epsR : ℝ) (ps : Bool) (h0 : 0 < a) (h1 : a < 1) (hw : 0 < w) (hmu : 0 < mu) (ht : tol < (1 - a) * (1 - a) / 2) :
    EnergyD 2 (hookeW mu) (hooke2 mu) ∧
    ∃ (A : DMat ℝ) (f : DVec ℝ) (N : ℝ → NormUL.Norms ℝ),
      fbarElement 2 false tol epsR [square 0 0 4] ⟨2 * 4, dofVec 2 shearU⟩ ([square a a w, square a (-a) w, square (-a) a w, square (-a) (-a) w].map fun q => (q, fun F _ => .ok (hookeC mu F, hooke2 mu F), [1]))
        (DMat.zero (2 * 4) (2 * 4), DVec.zero (2 * 4)) = .ok (A, f) ∧
      (∀ᶠ t in 𝓝 (0 : ℝ), fbNorm 2 false ps tol epsR [square 0 0 4] ⟨2 * 4, dofVec 2 (along shearU shearV t)⟩
        ([square a a w, square a (-a) w, square (-a) a w, square (-a) (-a) w].map fun q => (q, fun F _ => .ok (hooke2 mu F, hookeW mu F), [1])) = .ok (N t)) ∧
      -f.dot (dofVec 2 shearV) = 8 * w * mu * a ^ 2 ∧ HasDerivAt (fun t => (N t).energy) (12 * w * mu * a ^ 2 / (1 - a ^ 2) ^ 2) 0 ∧ 8 * w * mu * a ^ 2 < 12 * w * mu * a ^ 2 / (1 - a ^ 2) ^ 2 := by
  refine ⟨hookeW_ok mu, ?_⟩
  have hrat : ∀ b c w : ℝ, ratio 2 (grad 4 shearU (square b c w).dN.e) = 1 + c := by
    intro b c w
    obtain ⟨g1, g2, g3, g4, -⟩ := shear_grad b c w
    simp [ratio, Matrix.det_fin_two, lead, defF, g1, g2, g3, g4]
  have hstr : ∀ b c w : ℝ, -a ≤ b → ∃ i, 1 ≤ i ∧ i ≤ 2 * (2 + 1) / 2 ∧ tol < |greenV 2 (grad 4 shearU (square b c w).dN.e) i| := by
    intro b c w hb
    obtain ⟨g1, g2, g3, g4, -⟩ := shear_grad b c w
    refine ⟨2, by norm_num, by norm_num, ?_⟩
    have : greenV 2 (grad 4 shearU (square b c w).dN.e) 2 = (1 + b) * (1 + b) / 2 := by
      simp [greenV, engineering, eng2, green, Finset.sum_range_succ, g1, g2, g3, g4]
      ring
    rw [this, abs_of_nonneg (by nlinarith)]
    nlinarith
  have hline : ∀ t, ratio 2 (grad 4 (along shearU shearV t) (square 0 0 4).dN.e) = 1 := by
    intro t
    obtain ⟨g1, g2, g3, g4, k1, k2, k3, k4⟩ := shear_grad 0 0 4
    have e : ∀ i j, grad 4 (along shearU shearV t) (square 0 0 4).dN.e i j = grad 4 shearU (square 0 0 4).dN.e i j + t * grad 4 shearV (square 0 0 4).dN.e i j := fun i j => by rw [grad_line]
    simp [ratio, Matrix.det_fin_two, lead, defF, e, g1, g2, g3, g4, k1, k2, k3, k4]
  have hmem : ∀ p ∈ ([square a a w, square a (-a) w, square (-a) a w, square (-a) (-a) w].map fun q => ((q, (fun F _ => .ok (hookeC mu F, hooke2 mu F) : Mat ℝ), [1]) : FPt ℝ × Mat ℝ × List ℝ)),
      ∃ b c, -a ≤ b ∧ 0 < 1 + c ∧ p = (square b c w, fun F _ => .ok (hookeC mu F, hooke2 mu F), [1]) := by
    intro p hp
    simp only [List.map_cons, List.map_nil, List.mem_cons, List.not_mem_nil, or_false] at hp
    rcases hp with h | h | h | h <;> subst h
    · exact ⟨a, a, by linarith, by linarith, rfl⟩
    · exact ⟨a, -a, by linarith, by linarith, rfl⟩
    · exact ⟨-a, a, by linarith, by linarith, rfl⟩
    · exact ⟨-a, -a, by linarith, by linarith, rfl⟩
  have hsmp : ∀ s ∈ [square 0 0 4], s.dN.nr = 4 ∧ s.dN.nc = 2 ∧ (∃ i, 1 ≤ i ∧ i ≤ 2 * (2 + 1) / 2 ∧ tol < |greenV 2 (grad 4 shearU s.dN.e) i|) ∧ ratio 2 (grad 4 shearU s.dN.e) ≠ 0 := by
    intro s hs
    have : s = square 0 0 4 := by simpa using hs
    subst this
    exact ⟨rfl, rfl, hstr 0 0 4 (by linarith), by rw [hrat]; norm_num⟩
  have hg : ∀ p ∈ ([square a a w, square a (-a) w, square (-a) a w, square (-a) (-a) w].map fun q => ((q, (fun F _ => .ok (hookeC mu F, hooke2 mu F) : Mat ℝ), [1]) : FPt ℝ × Mat ℝ × List ℝ)), ∀ i r, i < 2 → r < 2 →
      ∑ l ∈ Finset.range 2, shearG p.1 (i + 1) (l + 1) * defF 2 (grad 4 shearU p.1.dN.e) (l + 1) (r + 1) = grad 4 shearV p.1.dN.e (i + 1) (r + 1) := by
    intro p hp i r hi hr
    obtain ⟨b, c, hb, hc, rfl⟩ := hmem p hp
    obtain ⟨g1, g2, g3, g4, k1, k2, k3, k4⟩ := shear_grad b c w
    have : 1 + c ≠ 0 := hc.ne'
    interval_cases i <;> interval_cases r <;> simp [Finset.sum_range_succ, shearG, defF, g1, g2, g3, g4, k1, k2, k3, k4] <;> field_simp <;> ring
  have hwork : ∀ S : FPt ℝ × Mat ℝ × List ℝ → Nat → Nat → ℝ, (∀ p, S p = symT 2 false (hooke2 mu (scaledF 2 (grad 4 shearU p.1.dN.e) 1))) → ∀ b c, 0 < 1 + c → ∀ m l,
      S (square b c w, m, l) 1 1 = mu * (((1 + c) * (1 + c) + (1 + b) * (1 + b)) / (1 + c) - 1) ∧ S (square b c w, m, l) 1 2 = mu * ((1 + b) / (1 + c)) ∧ S (square b c w, m, l) 2 1 = mu * ((1 + b) / (1 + c)) ∧ S (square b c w, m, l) 2 2 = mu * (1 / (1 + c) - 1) := by
    intro S hS b c hc m l
    obtain ⟨g1, g2, g3, g4, -⟩ := shear_grad b c w
    obtain ⟨s1, s2, s3⟩ := hooke2_bar mu (grad 4 shearU (square b c w).dN.e) (by rw [hrat]; exact hc)
    rw [hS]
    simp only [symT]
    simp [s1, s2, s3, hrat, g1, g2, g3, g4]
  obtain ⟨A, f, N, e1, e2, e3⟩ := C117_fbar_rate 2 (.inl rfl) 4 (by norm_num) ps tol epsR [square 0 0 4] ([square a a w, square a (-a) w, square (-a) a w, square (-a) (-a) w].map fun q => (q, fun F _ => .ok (hookeC mu F, hooke2 mu F), [1]))
    shearU shearV (fun _ => hooke2 mu) (fun _ => hookeW mu) (fun _ => fun F _ => .ok (hooke2 mu F, hookeW mu F)) (fun _ => hooke2 mu) hsmp
    (fun p hp => by
      obtain ⟨b, c, hb, hc, rfl⟩ := hmem p hp
      exact ⟨rfl, rfl, rfl, hstr b c w hb, by rw [hrat]; exact hc, by simp [meanRatio, hrat], ⟨_, hooke2_ok mu⟩, hookeW_ok mu, fun _ _ => rfl⟩)
    shearG hg (fun _ => 0)
    (fun p hp => by
      simp only [List.map_cons, List.map_nil, meanRatio, hline]
      exact hasDerivAt_const _ _)
    (fun _ => 1) (fun p => by simp [meanRatio, hrat]) _ (fun p => rfl)
  obtain ⟨A', f', e1', e2'⟩ := C113_forces 2 (.inl rfl) 4 (by norm_num) tol epsR [square 0 0 4] ([square a a w, square a (-a) w, square (-a) a w, square (-a) (-a) w].map fun q => (q, fun F _ => .ok (hookeC mu F, hooke2 mu F), [1]))
    shearU (fun _ => hooke2 mu) hsmp
    (fun p hp => by
      obtain ⟨b, c, hb, hc, rfl⟩ := hmem p hp
      exact ⟨rfl, rfl, rfl, hstr b c w hb, by rw [hrat]; exact hc.ne', by simp [meanRatio, hrat], ⟨_, hooke2_ok mu⟩⟩)
  have hf : f' = f := by rw [e1] at e1'; cases e1'; rfl
  subst hf
  have hfx : -f'.dot (dofVec 2 shearV) = 8 * w * mu * a ^ 2 := by
    rw [e2' shearV shearG hg, neg_neg]
    simp only [List.map_cons, List.map_nil, List.sum_cons, List.sum_nil, meanRatio, hrat, add_zero, Finset.sum_range_succ, Finset.sum_range_zero, zero_add, Nat.reduceAdd]
    have q1 := hwork (fun p => symT 2 false (hooke2 mu (scaledF 2 (grad 4 shearU p.1.dN.e) 1))) (fun _ => rfl) a a (by linarith) (fun _ _ => .ub) []
    have q2 := hwork (fun p => symT 2 false (hooke2 mu (scaledF 2 (grad 4 shearU p.1.dN.e) 1))) (fun _ => rfl) a (-a) (by linarith) (fun _ _ => .ub) []
    have q3 := hwork (fun p => symT 2 false (hooke2 mu (scaledF 2 (grad 4 shearU p.1.dN.e) 1))) (fun _ => rfl) (-a) a (by linarith) (fun _ _ => .ub) []
    have q4 := hwork (fun p => symT 2 false (hooke2 mu (scaledF 2 (grad 4 shearU p.1.dN.e) 1))) (fun _ => rfl) (-a) (-a) (by linarith) (fun _ _ => .ub) []
    simp only [] at q1 q2 q3 q4
    rw [q1.1, q1.2.1, q1.2.2.1, q1.2.2.2, q2.1, q2.2.1, q2.2.2.1, q2.2.2.2, q3.1, q3.2.1, q3.2.2.1, q3.2.2.2, q4.1, q4.2.1, q4.2.2.1, q4.2.2.2]
    obtain ⟨g11, g12, -, -, k11, k12, -⟩ := shear_grad a a w
    obtain ⟨g21, g22, -, -, k21, k22, -⟩ := shear_grad a (-a) w
    obtain ⟨g31, g32, -, -, k31, k32, -⟩ := shear_grad (-a) a w
    obtain ⟨g41, g42, -, -, k41, k42, -⟩ := shear_grad (-a) (-a) w
    simp only [show ∀ b c, (square b c w).w = w from fun _ _ => rfl, shearG, g11, g12, k11, k12, g21, g22, k21, k22, g31, g32, k31, k32, g41, g42, k41, k42, if_true, if_false, show ¬ (2 = 1) by omega]
    have p1 : (1 + a) ≠ 0 := by linarith
    have p2 : (1 + -a) ≠ 0 := by linarith
    have p2' : (1 - a) ≠ 0 := by linarith
    field_simp
    ring
  refine ⟨A, f', N, e1, e2, hfx, ?_, ?_⟩
  · refine e3.congr_deriv ?_
    rw [hfx]
    simp only [List.map_cons, List.map_nil, List.sum_cons, List.sum_nil, hrat, add_zero, Finset.sum_range_succ, Finset.sum_range_zero, zero_add, Nat.reduceAdd]
    have q1 := hwork (fun p => symT 2 false (hooke2 mu (scaledF 2 (grad 4 shearU p.1.dN.e) 1))) (fun _ => rfl) a a (by linarith) (fun _ _ => .ub) []
    have q2 := hwork (fun p => symT 2 false (hooke2 mu (scaledF 2 (grad 4 shearU p.1.dN.e) 1))) (fun _ => rfl) a (-a) (by linarith) (fun _ _ => .ub) []
    have q3 := hwork (fun p => symT 2 false (hooke2 mu (scaledF 2 (grad 4 shearU p.1.dN.e) 1))) (fun _ => rfl) (-a) a (by linarith) (fun _ _ => .ub) []
    have q4 := hwork (fun p => symT 2 false (hooke2 mu (scaledF 2 (grad 4 shearU p.1.dN.e) 1))) (fun _ => rfl) (-a) (-a) (by linarith) (fun _ _ => .ub) []
    simp only [] at q1 q2 q3 q4
    rw [q1.1, q1.2.1, q1.2.2.1, q1.2.2.2, q2.1, q2.2.1, q2.2.2.1, q2.2.2.2, q3.1, q3.2.1, q3.2.2.1, q3.2.2.2, q4.1, q4.2.1, q4.2.2.1, q4.2.2.2]
    obtain ⟨g11, g12, -, -, k11, k12, -⟩ := shear_grad a a w
    obtain ⟨g21, g22, -, -, k21, k22, -⟩ := shear_grad a (-a) w
    obtain ⟨g31, g32, -, -, k31, k32, -⟩ := shear_grad (-a) a w
    obtain ⟨g41, g42, -, -, k41, k42, -⟩ := shear_grad (-a) (-a) w
    simp only [show ∀ b c, (square b c w).w = w from fun _ _ => rfl, shearG, g11, g12, k11, k12, g21, g22, k21, k22, g31, g32, k31, k32, g41, g42, k41, k42, if_true, if_false, show ¬ (2 = 1) by omega]
    have p1 : (1 + a) ≠ 0 := by linarith
    have p2 : (1 + -a) ≠ 0 := by linarith
    have p2' : (1 - a) ≠ 0 := by linarith
    have p3 : 1 - a ^ 2 ≠ 0 := by nlinarith
    field_simp
    ring
  · exact shear_less a w mu h0 h1 hw hmu

example : (0 : ℝ) < 1 / 2 ∧ (1 / 2 : ℝ) < 1 ∧ (1 / 10 : ℝ) < (1 - 1 / 2) * (1 - 1 / 2) / 2 := by norm_num

end Verif.Finite

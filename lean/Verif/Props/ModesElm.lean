/-
Properties C12 and C61: element matrix slots of the specialised elements.
-/
import Verif.Proofs.Modes
import Mathlib.Tactic.Linarith
import Mathlib.Tactic.NormNum
import Mathlib.Data.Rat.Floor

set_option linter.unusedSectionVars false
set_option linter.unnecessarySeqFocus false
set_option linter.unusedSimpArgs false
set_option linter.unusedVariables false

namespace Verif.Modes

section
variable {K : Type*} [Zero K] [One K] [LinearOrder K]

/-! ### C12: specialised elements -/

/-- F-bar element: the slots used are allocated in the modes for linear and nonlinear static
solves, residual evaluation, and eigenvalue analyses. -/
theorem C12_fbar_partial (q : Prm K) (m : Mode) (s : St) (d : Dat)
    (hm : m = .static ∨ m = .rhsOnly ∨ m = .vibration ∨ m = .buckling ∨ m = .recovery
      ∨ m = .norms ∨ m = .init) :
    touchAll (fbarAlloc (ulSetMode q m s) false) (fbarDomain (ulSetMode q m s) d) = .ok () ∧
    touchAll (fbarAlloc (ulSetMode q m s) true) (contBou (ulSetMode q m s)) = .ok () := by
  rcases hm with rfl | rfl | rfl | rfl | rfl | rfl | rfl <;>
    simp [ulSetMode, baseSetMode, baseSlots, fbarAlloc, fbarDomain, contBou,
      touchAll_append, touchAll_sl, touchAll_cons, touchAll_nil, touch_A, touch_b]

/-- F-bar element: in every other mode that assembles element quantities the interior
integration accesses a matrix or vector that does not exist, for all parameter settings. -/
theorem C12_fbar_violated (q : Prm K) (m : Mode) (s : St) (d : Dat) (hs : d.strains = true)
    (hm : m = .dynamic ∨ m = .arclen ∨ m = .stiffOnly ∨ m = .massOnly ∨ m = .intForces) :
    touchAll (fbarAlloc (ulSetMode q m s) false) (fbarDomain (ulSetMode q m s) d) = .ub := by
  rcases hm with rfl | rfl | rfl | rfl | rfl <;>
    simp [ulSetMode, baseSetMode, baseSlots, fbarAlloc, fbarDomain, sl, touchAll, touch, hs]

/-- Continuous mixed element: all accesses are inside the fixed set of matrices, and the
stiffness, geometric stiffness and load go to the displacement blocks, for nonlinear static
solves and residual evaluation. -/
theorem C12_mixed_partial (q : Prm K) (m : Mode) (s : St) (d : Dat) (hp : q.p3 ≤ 0)
    (hm : m = .static ∨ m = .rhsOnly ∨ m = .arclen) :
    touchAll mixedAlloc (mixedDomain (ulSetMode q m s) d) = .ok () ∧
    touchAll mixedAlloc (contBou (ulSetMode q m s)) = .ok () ∧
    (ulSetMode q m s).eKm = 1 ∧ (ulSetMode q m s).eKg = 1 ∧ (ulSetMode q m s).eS = 1 ∧
    (ulSetMode q m s).eM = 0 := by
  rcases hm with rfl | rfl | rfl <;>
    simp [ulSetMode, baseSetMode, baseSlots, mixedAlloc, mixedDomain, contBou, hp.not_gt,
      touchAll_append, touchAll_sl, touchAll_cons, touchAll_nil, touch_A, touch_b]

/-- Continuous mixed element, linear geometry (`intPrm[3] > 0`), or modes without a stiffness
matrix: matrix index -1 is accessed as soon as there are strains. -/
theorem C12_mixed_violated (q : Prm K) (m : Mode) (s : St) (d : Dat) (hs : d.strains = true)
    (hm : (m = .static ∧ 0 < q.p3) ∨ m = .intForces ∨ m = .massOnly) :
    touchAll mixedAlloc (mixedDomain (ulSetMode q m s) d) = .ub := by
  rcases hm with ⟨rfl, h⟩ | rfl | rfl <;>
    simp [ulSetMode, baseSetMode, baseSlots, mixedAlloc, mixedDomain, sl, touchAll, touch, hs, *]

/-- Continuous mixed element in dynamics: the mass matrix is accumulated in the coupling matrix
between displacement and volumetric change (`A[1]` = Kut), and the stiffness in the one
between displacement and pressure (`A[2]` = Kup). -/
theorem C12_mixed_alias_violated (q : Prm K) (s : St) :
    (ulSetMode q .dynamic s).eM - 1 = 1 ∧ (ulSetMode q .dynamic s).eKm - 1 = 2 := by
  simp [ulSetMode, baseSetMode, baseSlots]

/-- Discontinuous mixed element: static solves and residual evaluation only touch allocated
slots, and none of them is the pressure matrix (the last one). -/
theorem C12_mx_partial (q : Prm K) (m : Mode) (s : St) (d : Dat) (hm : m = .static ∨ m = .rhsOnly) :
    ∃ al, mxAlloc (ulSetMode q m s) false = some al ∧
      touchAll al (mxDomain (ulSetMode q m s) d) = .ok () ∧
      (∀ i, Slot.A i ∈ mxDomain (ulSetMode q m s) d → i ≠ (al.nA : Int) - 1) ∧
    ∃ al', mxAlloc (ulSetMode q m s) true = some al' ∧
      touchAll al' (contBou (ulSetMode q m s)) = .ok () := by
  rcases hm with rfl | rfl <;> by_cases h3 : 0 < q.p3 <;>
    refine ⟨_, rfl, ?_, ?_, _, rfl, ?_⟩ <;>
    simp [ulSetMode, baseSetMode, baseSlots, mxDomain, contBou, h3,
      touchAll_append, touchAll_sl, touchAll_cons, touchAll_nil, touch_A, touch_b] <;>
    (intro i hi; simp [sl] at hi; omega)

/-- Discontinuous mixed element in dynamics: the stiffness is accumulated in the pressure
matrix. -/
theorem C12_mx_alias_violated (q : Prm K) (s : St) (d : Dat) :
    ∃ al, mxAlloc (ulSetMode q .dynamic s) false = some al ∧
      Slot.A ((al.nA : Int) - 1) ∈ mxDomain (ulSetMode q .dynamic s) d := by
  refine ⟨_, rfl, ?_⟩
  simp [ulSetMode, baseSetMode, baseSlots, mxDomain, sl]

set_option maxHeartbeats 2000000 in
/-- Beam element, any mode and history of container types, without the HHT split of forces
(`intPrm[4] ≠ 1`): all slots exist. -/
theorem C12_beam_partial (q : Prm K) (m : Mode) (s : St) (d : Dat) (ax : Bool) (ty : BeamType)
    (h4 : q.p4 ≠ 1) (made : BeamType) (al : Alloc) (ty' : BeamType)
    (hc : beamCreate q (baseSetMode q m s) ax ty = some (made, al, ty')) :
    touchAll al (beamDomain (baseSetMode q m s) d) = .ok () := by
  rcases q with ⟨p2, p3, p4, nCS, nSV, bdf, isModal⟩
  rcases s with ⟨sm, eM, eKm, eKg, eS, gS, iS, dS, prim, fB⟩
  simp only at h4
  revert hc
  rcases sgn p3 with ⟨a, b, c, e⟩ | ⟨a, b, c, e⟩ | ⟨a, b, c, e⟩ <;> cases m <;>
    cases ax <;> cases ty <;> by_cases hn : nCS < nSV <;>
  simp [beamCreate, baseSimMode, baseSetMode, baseSlots, beamDomain, a, b, c, e, h4, hn,
      touchAll_append, touchAll_sl, touchAll_cons, touchAll_nil, touch_A, touch_b] <;>
  (rintro rfl rfl rfl; simp)

/-- Beam element with the HHT split of forces in nonlinear dynamics: gravity is put in the
third load vector, but two are allocated. -/
theorem C12_beam_hht_violated (q : Prm K) (s : St) (d : Dat) (ty : BeamType) (h3 : q.p3 = 0)
    (h4 : q.p4 = 1) (hg : d.grav = true) (he : d.ecc = false) :
    ∃ r, beamCreate q (baseSetMode q .dynamic s) false ty = some r ∧
      touchAll r.2.1 (beamDomain (baseSetMode q .dynamic s) d) = .ub := by
  refine ⟨_, by simp [beamCreate, baseSimMode, baseSetMode, baseSlots, h3]; rfl, ?_⟩
  rcases d with ⟨d1, d2, d3, d4, d5, d6, d7, d8, d9, d10, d11⟩
  simp only at hg he
  subst hg he
  cases d6 <;> cases d8 <;>
  simp [baseSetMode, baseSlots, beamDomain, sl, touchAll, touch, h3, h4]

/-- Bar element: all slots exist unless a right-hand side is evaluated within a Newmark
scheme, or a linear dynamic analysis is combined with the HHT split of forces. -/
theorem C12_bar_partial (q : Prm K) (m : Mode) (s : St) (d : Dat)
    (h1 : m = .rhsOnly → ¬ q.nCS < q.nSV) (h2 : ¬ (0 < q.p3 ∧ q.p4 = 1)) :
    touchAll (barAlloc q (baseSetMode q m s) false) (barDomain (baseSetMode q m s) d) = .ok () ∧
    touchAll (barAlloc q (baseSetMode q m s) true)
      (sl (decide ((baseSetMode q m s).eS ≠ 0)) [.b ((baseSetMode q m s).eS - 1)]) = .ok () := by
  rcases q with ⟨p2, p3, p4, nCS, nSV, bdf, isModal⟩
  rcases s with ⟨sm, eM, eKm, eKg, eS, gS, iS, dS, prim, fB⟩
  simp only at h1 h2
  rcases sgn p3 with ⟨a, b, c, e⟩ | ⟨a, b, c, e⟩ | ⟨a, b, c, e⟩ <;> cases m <;>
    by_cases h4 : p4 = 1 <;> by_cases hn : nCS < nSV <;>
    first | (exact absurd hn (h1 rfl)) | (exact absurd (And.intro b h4) h2) |
    simp [barAlloc, baseSetMode, baseSlots, barDomain, a, b, c, e, h4, hn,
      touchAll_append, touchAll_sl, touchAll_cons, touchAll_nil, touch_A, touch_b]

/-- Bar element, right-hand side within a Newmark scheme: the integrand accesses the stiffness
and mass matrix, none is allocated. -/
theorem C12_bar_rhs_violated (q : Prm K) (s : St) (d : Dat) (h : q.nCS < q.nSV) :
    touchAll (barAlloc q (baseSetMode q .rhsOnly s) false)
      (barDomain (baseSetMode q .rhsOnly s) d) = .ub := by
  simp [barAlloc, baseSetMode, baseSlots, barDomain, sl, touchAll, touch, h]

set_option maxHeartbeats 2000000 in
/-- Cable element: interior terms under the same conditions as the bar, end moments in the
static, arc-length and linear dynamic modes. -/
theorem C12_cable_partial (q : Prm K) (m : Mode) (s : St) (d : Dat)
    (h1 : m = .rhsOnly → ¬ q.nCS < q.nSV) (h2 : ¬ (0 < q.p3 ∧ q.p4 = 1))
    (h3 : m = .dynamic → 0 < q.p3 ∨ d.lcStif = false) :
    touchAll (cableAlloc q (baseSetMode q m s) false d) (cableDomain (baseSetMode q m s) d)
      = .ok () ∧
    touchAll (cableAlloc q (baseSetMode q m s) true d) (cableBou (baseSetMode q m s) d)
      = .ok () := by
  rcases q with ⟨p2, p3, p4, nCS, nSV, bdf, isModal⟩
  rcases s with ⟨sm, eM, eKm, eKg, eS, gS, iS, dS, prim, fB⟩
  rcases d with ⟨d1, d2, d3, d4, d5, d6, d7, d8, d9, d10, d11⟩
  simp only at h1 h2 h3
  rcases sgn p3 with ⟨a, b, c, e⟩ | ⟨a, b, c, e⟩ | ⟨a, b, c, e⟩ <;> cases m <;>
    by_cases h4 : p4 = 1 <;> by_cases hn : nCS < nSV <;> cases d9 <;> cases d10 <;>
    first | (exfalso; revert h3; simp [b]; done) | (exact absurd hn (h1 rfl)) | (exact absurd (And.intro b h4) h2) |
    simp [cableAlloc, barAlloc, baseSetMode, baseSlots, cableDomain, cableBou, a, b, c, e, h4, hn,
      touchAll_append, touchAll_sl, touchAll_cons, touchAll_nil, touch_A, touch_b]

/-- Cable element, end moment with load-correction stiffness in nonlinear dynamics: the
stiffness matrix accessed is not allocated for boundary terms. -/
theorem C12_cable_moment_violated (q : Prm K) (s : St) (d : Dat) (h3 : q.p3 ≤ 0)
    (hm : d.moment = true) (hl : d.lcStif = true) :
    touchAll (cableAlloc q (baseSetMode q .dynamic s) true d)
      (cableBou (baseSetMode q .dynamic s) d) = .ub := by
  rcases q with ⟨p2, p3, p4, nCS, nSV, bdf, isModal⟩
  simp only at h3
  rcases sgn p3 with ⟨a, b, c, e⟩ | ⟨a, b, c, e⟩ | ⟨a, b, c, e⟩
  · by_cases h4 : p4 = 1 <;>
    simp [cableAlloc, barAlloc, baseSetMode, baseSlots, cableBou, sl, touchAll, touch,
      h4, a, b, c, e, hm, hl]
  · by_cases h4 : p4 = 1 <;>
    simp [cableAlloc, barAlloc, baseSetMode, baseSlots, cableBou, sl, touchAll, touch,
      h4, b, e, hm, hl]
  · exact absurd b h3.not_gt

/-- Plate and linear shell elements: all modes, all parameters. -/
theorem C12_plate_shell (q : Prm K) (m : Mode) (s : St) (d : Dat) :
    touchAll (klAlloc q (klSetMode q m s) false) (plateDomain (klSetMode q m s) d) = .ok () ∧
    touchAll (klAlloc q (klSetMode q m s) true) (plateBou (klSetMode q m s)) = .ok () ∧
    touchAll (klAlloc q (klSetMode q m s) false) (shellDomain (klSetMode q m s) d) = .ok () ∧
    touchAll (klAlloc q (klSetMode q m s) true) (contBou (klSetMode q m s)) = .ok () := by
  rcases q with ⟨p2, p3, p4, nCS, nSV, bdf, isModal⟩
  rcases s with ⟨sm, eM, eKm, eKg, eS, gS, iS, dS, prim, fB⟩
  rcases sgn p3 with ⟨a, b, c, e⟩ | ⟨a, b, c, e⟩ | ⟨a, b, c, e⟩ <;> cases isModal <;>
    by_cases h2 : p2 = 0 <;> cases m <;>
    simp [klAlloc, klSetMode, klEff, klTable, a, b, c, e, h2, plateDomain, plateBou, shellDomain, contBou,
      Mode.val, touchAll_append, touchAll_sl, touchAll_cons, touchAll_nil, touch_A, touch_b]

/-- Nonlinear shell element: all modes except the internal force mode. -/
theorem C12_nlshell_partial (q : Prm K) (m : Mode) (s : St) (d : Dat) (hm : m ≠ .intForces) :
    touchAll (klAlloc q (nlShellSetMode q m s) false) (nlShellDomain (nlShellSetMode q m s) d)
      = .ok () ∧
    touchAll (klAlloc q (nlShellSetMode q m s) true) (contBou (nlShellSetMode q m s))
      = .ok () := by
  rcases q with ⟨p2, p3, p4, nCS, nSV, bdf, isModal⟩
  rcases s with ⟨sm, eM, eKm, eKg, eS, gS, iS, dS, prim, fB⟩
  rcases sgn p3 with ⟨a, b, c, e⟩ | ⟨a, b, c, e⟩ | ⟨a, b, c, e⟩ <;> cases isModal <;>
    by_cases h2 : p2 = 0 <;> cases m <;> first | exact absurd rfl hm |
    simp [klAlloc, nlShellSetMode, klSetMode, klEff, klTable, a, b, c, e, h2, nlShellDomain, contBou,
      Mode.val, touchAll_append, touchAll_sl, touchAll_cons, touchAll_nil, touch_A, touch_b]

/-- Nonlinear shell element, internal force mode: no vector is allocated. -/
theorem C12_nlshell_violated (q : Prm K) (s : St) (d : Dat) :
    touchAll (klAlloc q (nlShellSetMode q .intForces s) false)
      (nlShellDomain (nlShellSetMode q .intForces s) d) = .ub := by
  simp [klAlloc, nlShellSetMode, klSetMode, klEff, klTable, nlShellDomain, sl, touchAll, touch]

/-! ### C61: type of the beam element containers -/

/-- History of a beam integrand: each entry is a mode change followed by the evaluation of an
element, with the time integration parameters in force. Returns the recorded container type,
or the outcome of the first failing access. -/
def beamHistory (ax : Bool) : List (Prm K × Mode) → BeamType → St → Res BeamType
  | [], ty, _ => .ok ty
  | (q, m) :: hist, ty, s =>
    let s' := baseSetMode q m s
    match beamCreate q s' ax ty with
    | none => .fail
    | some (made, _, ty') => Res.bind (beamAxes made ty') fun _ => beamHistory ax hist ty' s'

/-- C61 fails: a dynamic element evaluation followed by a static one (for instance a dynamic
analysis after which a static right-hand side, a mass matrix or an eigenvalue problem is
assembled with the same integrand) accesses the plain container as a dynamic one. -/
theorem C61_violated (q : Prm K) (m : Mode) (s : St) (hp : 0 < q.p3)
    (hm : baseSimMode q m ≠ .dynamic) :
    beamHistory true [(q, .dynamic), (q, m)] .std s = .ub := by
  have h2 : ∀ s, (baseSetMode q m s).mode = m := by intro s; cases m <;> rfl
  simp [beamHistory, beamCreate, baseSimMode, beamAxes, hp, h2,
    show ∀ s, (baseSetMode q Mode.dynamic s).mode = .dynamic from fun _ => rfl] at hm ⊢
  rw [if_neg hm]
  rfl

/-- C61 holds for histories in which every evaluation that needs a plain container comes
before the first one that needs a dynamic container (and all dynamic ones are supported). -/
theorem C61_static_then_dynamic_partial (ax : Bool) (pre post : List (Prm K × Mode)) (s : St)
    (hpre : ∀ x ∈ pre, baseSimMode x.1 x.2 ≠ .dynamic)
    (hpost : ∀ x ∈ post, baseSimMode x.1 x.2 = .dynamic ∧ (0 < x.1.p3 ∨ ax = false)) :
    ∃ ty, beamHistory ax (pre ++ post) .std s = .ok ty := by
  have hmode : ∀ (q : Prm K) (m : Mode) (s : St), (baseSetMode q m s).mode = m := by
    intro q m s; cases m <;> rfl
  have hp : ∀ (post : List (Prm K × Mode)) (ty : BeamType) (s : St),
      (∀ x ∈ post, baseSimMode x.1 x.2 = .dynamic ∧ (0 < x.1.p3 ∨ ax = false)) →
      ∃ ty', beamHistory ax post ty s = .ok ty' := by
    intro post
    induction post with
    | nil => intro ty s _; exact ⟨ty, rfl⟩
    | cons x post ih =>
      intro ty s h
      obtain ⟨h1, h2⟩ := h x (by simp)
      have h3 := fun ty s => ih ty s (fun y hy => h y (by simp [hy]))
      obtain ⟨q, m⟩ := x
      simp only at h1 h2
      by_cases hq : 0 < q.p3
      · simpa [beamHistory, beamCreate, hmode, h1, hq, beamAxes] using h3 _ _
      · have ha := h2.resolve_left hq
        simpa [beamHistory, beamCreate, hmode, h1, hq, ha, beamAxes] using h3 _ _
  induction pre generalizing s with
  | nil => exact hp post .std s hpost
  | cons x pre ih =>
    obtain ⟨q, m⟩ := x
    have h1 := hpre (q, m) (by simp)
    simp only at h1
    have h3 := ih (baseSetMode q m s) (fun y hy => hpre y (by simp [hy]))
    simpa [beamHistory, beamCreate, hmode, h1, beamAxes] using h3

/-! ### The hypotheses are met -/

/-- A static step followed by two dynamic ones. -/
example : beamHistory true [((⟨0, 0, 0, 1, 1, false, false⟩ : Prm ℚ), .static),
    (⟨1, 1, 0, 1, 3, false, false⟩, .dynamic), (⟨1, 1, 0, 1, 3, false, false⟩, .rhsOnly)] .std
    ⟨.init, 0, 0, 0, 0, 0, 0, 0, 0, false⟩ = .ok .dyn := by decide +kernel

/-- A dynamic beam element with axial force accesses three matrices and the load vector. -/
example : beamDomain (baseSetMode (⟨1, -1, 0, 1, 3, false, false⟩ : Prm ℚ) .dynamic
      ⟨.init, 0, 0, 0, 0, 0, 0, 0, 0, false⟩)
      ⟨true, true, true, true, true, true, false, true, true, true, true⟩
    = [.A 2, .b 0, .A 2, .b 0, .A 3, .A 1, .b 0] := by decide +kernel

end

end Verif.Modes

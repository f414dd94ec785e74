/-
Properties C11 and C13: solution modes and element matrix slots of the continuum elements.
-/
import Verif.Proofs.Modes
import Mathlib.Tactic.FinCases
import Mathlib.Tactic.Linarith
import Mathlib.Tactic.NormNum
import Mathlib.Data.Rat.Floor

set_option linter.unusedSectionVars false
set_option linter.unnecessarySeqFocus false
set_option linter.unusedSimpArgs false
set_option linter.unusedVariables false

namespace Verif.Modes

section
variable {K : Type*} [Zero K] [One K] [LinearOrder K]

/-! ### C11: the continuum elements -/

/-- C11 for linear elasticity, in every assembly mode and for every parameter setting except
that a BDF scheme is combined with a dual solution and a positive fourth parameter (see
`C11_bdf_dual_violated`): interior, interface and boundary terms only touch matrices and
vectors that getLocalIntegral has allocated. (In mode NORMS no element matrices are
assembled.) -/
theorem C11_linear_partial (q : Prm K) (m : Mode) (s : St) (d : Dat) (hd : 0 ≤ s.dS)
    (hm : m ≠ .norms) (hb : q.bdf = false ∨ s.dS = 0 ∨ q.p3 ≤ 0 ∨ q.p4 = 1) :
    touchAll (contAlloc q (linSetMode q m s) false) (linDomain (linSetMode q m s) d) = .ok () ∧
    touchAll (contAlloc q (linSetMode q m s) false) (linInterface (linSetMode q m s)) = .ok () ∧
    touchAll (contAlloc q (linSetMode q m s) true) (contBou (linSetMode q m s)) = .ok () := by
  rcases q with ⟨p2, p3, p4, nCS, nSV, bdf, isModal⟩
  rcases s with ⟨sm, eM, eKm, eKg, eS, gS, iS, dS, prim, fB⟩
  simp only at hb hd
  rcases hd.eq_or_lt with h0 | h0
  · subst h0
    cases isModal <;> cases bdf <;> cases m <;>
      slots [linSetMode, linEff, baseSetMode, baseSlots, contAlloc, linDomain, linInterface, contBou]
  · have hb : bdf = false ∨ ¬ 0 < p3 ∨ p4 = 1 := by
      rcases hb with h | h | h | h
      · exact Or.inl h
      · exact absurd h h0.ne'
      · exact Or.inr (Or.inl h.not_gt)
      · exact Or.inr (Or.inr h)
    cases isModal <;> cases bdf <;> cases m <;> first | exact absurd rfl hm |
      slots [linSetMode, linEff, baseSetMode, baseSlots, contAlloc, linDomain, linInterface, contBou, h0]

/-- C11 fails for linear elasticity when a BDF scheme is combined with a dual solution in a
static solve with `intPrm[3] > 0`: one vector is allocated, the dual load uses the second. -/
theorem C11_bdf_dual_violated :
    ∃ (q : Prm ℚ) (s : St) (d : Dat), s.dS = 1 ∧
      touchAll (contAlloc q (linSetMode q .static s) false)
        (linDomain (linSetMode q .static s) d) = .ub :=
  ⟨⟨0, 1, 0, 4, 4, true, false⟩, ⟨.init, 0, 0, 0, 0, 0, 0, 1, 0, false⟩,
    ⟨false, false, true, false, false, false, false, false, false, false, false⟩, rfl, by
    decide +kernel⟩

/-- C11 for the nonlinear formulations (total Lagrangian, its tensorial variant, updated
Lagrangian): all modes, all parameters. -/
theorem C11_nonlinear (q : Prm K) (m : Mode) (s : St) (d : Dat)
    (hd : s.dS = 0) :
    touchAll (contAlloc q (tlSetMode q m s) false) (tlDomain (tlSetMode q m s) d) = .ok () ∧
    touchAll (contAlloc q (ulSetMode q m s) false) (ulDomain (ulSetMode q m s) d) = .ok () ∧
    touchAll (contAlloc q (ulSetMode q m s) false) (tensorDomain (ulSetMode q m s) d) = .ok () ∧
    touchAll (contAlloc q (tlSetMode q m s) true) (contBou (tlSetMode q m s)) = .ok () ∧
    touchAll (contAlloc q (ulSetMode q m s) true) (contBou (ulSetMode q m s)) = .ok () := by
  rcases q with ⟨p2, p3, p4, nCS, nSV, bdf, isModal⟩
  rcases s with ⟨sm, eM, eKm, eKg, eS, gS, iS, dS, prim, fB⟩
  simp only at hd
  subst hd
  rcases lt_trichotomy p3 0 with h3 | h3 | h3 <;> [have h3' := h3.not_gt; skip; have h3' := h3.not_gt] <;>
  cases bdf <;> cases m <;>
      slots [tlSetMode, ulSetMode, baseSetMode, baseSlots, contAlloc, tlDomain, ulDomain,
        tensorDomain, contBou, h3]

/-- The matrix and vector roles that must not share storage do not: mass and stiffness, the
separately integrated geometric stiffness of buckling and damped dynamics, load and load
gradient, external and internal forces under the HHT scheme, and the dual load. -/
theorem C11_roles_distinct (q : Prm K) (m : Mode) (s : St) :
    (let t := baseSetMode q m s
     (t.eM ≠ 0 → t.eM ≠ t.eKm ∧ t.eM ≠ t.eKg) ∧
     (m = .buckling → t.eKm ≠ t.eKg) ∧
     (m = .dynamic → q.p3 < 0 → t.eKm ≠ t.eKg) ∧
     (t.gS ≠ 0 → t.gS ≠ t.eS ∧ t.gS ≠ t.iS) ∧
     (m = .dynamic → q.p4 = 1 → t.eS ≠ t.iS)) ∧
    (0 < s.dS → m = .static → (linSetMode q m s).dS ≠ (linSetMode q m s).eS) := by
  rcases q with ⟨p2, p3, p4, nCS, nSV, bdf, isModal⟩
  rcases s with ⟨sm, eM, eKm, eKg, eS, gS, iS, dS, prim, fB⟩
  rcases lt_trichotomy p3 0 with h3 | h3 | h3 <;>
    [have h3' := h3.not_gt; skip; have h3' := h3.not_gt] <;> cases m <;>
    (simp [linSetMode, linEff, baseSetMode, baseSlots, h3] <;> (try (split_ifs <;> simp_all)))

/-- Reuse of stored element matrices (`initLHSbuffers(0)` after `initLHSbuffers(nEl)`) in the
modes that have a mass matrix: the stored matrices are put back into allocated slots. -/
theorem C11_reuse_partial (q : Prm K) (m : Mode) (s : St) (nEl : Nat) (buffered : Bool)
    (hn : 1 < nEl) (hm : (linSetMode q m s).eKm = 0 ∨ (linSetMode q m s).eM ≠ 0) :
    touchAll (contAlloc q (initLHSbuffers 0 (nEl, linSetMode q m s)).2 false)
      (linInitElement buffered (initLHSbuffers 0 (nEl, linSetMode q m s)).2) = .ok () := by
  rcases q with ⟨p2, p3, p4, nCS, nSV, bdf, isModal⟩
  rcases s with ⟨sm, eM, eKm, eKg, eS, gS, iS, dS, prim, fB⟩
  have h0 : 0 < nEl := by omega
  revert hm
  cases buffered <;> cases isModal <;> cases bdf <;> cases m <;>
    (simp [linSetMode, linEff, baseSetMode, baseSlots, contAlloc, initLHSbuffers, linInitElement, h0,
      touchAll_append, touchAll_sl, touchAll_cons, touchAll_nil, touch_A, touch_b] <;>
      (try (split_ifs <;> simp_all)))

/-- Reuse of stored element matrices is undefined behaviour in a static analysis: the mass
matrix slot is 0, and the code assigns to `A[-1]` because the restore of the mass matrix is
guarded by the stiffness index. -/
theorem C11_reuse_violated (q : Prm K) (s : St) (nEl : Nat) (hn : 1 < nEl) :
    touchAll (contAlloc q (initLHSbuffers 0 (initLHSbuffers nEl (0, linSetMode q .static s))).2
        false)
      (linInitElement true
        (initLHSbuffers 0 (initLHSbuffers nEl (0, linSetMode q .static s))).2) = .ub := by
  rcases q with ⟨p2, p3, p4, nCS, nSV, bdf, isModal⟩
  rcases s with ⟨sm, eM, eKm, eKg, eS, gS, iS, dS, prim, fB⟩
  have h0 : 0 < nEl := by omega
  cases bdf <;>
  simp [linSetMode, linEff, baseSetMode, baseSlots, contAlloc, initLHSbuffers, linInitElement, h0, hn,
    sl, touchAll, touch]
  split_ifs <;> rfl

/-! ### C13: mode switching -/

/-- One step of the history of an integrand: a mode change, a load gradient request, or a
request to reuse stored element matrices. -/
inductive Op
  | mode (m : Mode)
  | loadGradient
  | buffers (nEl : Nat)

/-- Effect of an operation on an integrand, given its setMode function. -/
def Op.apply (f : Mode → St → St) : Op → Nat × St → Nat × St
  | .mode m, x => (x.1, f m x.2)
  | .loadGradient, x => (x.1, setLoadGradientMode x.2)
  | .buffers n, x => initLHSbuffers n x

theorem dS_lin (q : Prm K) (m : Mode) (w : St) : (linSetMode q m w).dS =
    if 0 < w.dS then (if linEff q m = .static ∨ linEff q m = .norms then 2 else 1)
    else w.dS := by
  have h : (baseSetMode q (linEff q m) w).dS = w.dS := by
    generalize linEff q m = mm; cases mm <;> rfl
  simp only [linSetMode, h]

/-- After any history, a mode change gives all slots, the mode itself and the number of
solution vectors exactly the values they would have had on a fresh integrand, for all six
setMode functions. (The dual slot of linear elasticity only remembers whether there is a dual
problem at all.) -/
theorem C13_no_trace (q : Prm K) (m : Mode) (hist : List Op) (x y : Nat × St)
    (hdual : 0 < x.2.dS ↔ 0 < y.2.dS) (hx : 0 ≤ x.2.dS) (hy : 0 ≤ y.2.dS) :
    (∀ f ∈ [baseSetMode q, linSetMode q, ulSetMode q, tlSetMode q, klSetMode q,
        nlShellSetMode q],
      let s := f m (hist.foldl (fun z o => o.apply f z) x).2
      let t := f m y.2
      s.mode = t.mode ∧ s.eM = t.eM ∧ s.eKm = t.eKm ∧ s.eKg = t.eKg ∧ s.eS = t.eS ∧
        s.gS = t.gS ∧ s.iS = t.iS ∧ s.prim = t.prim) ∧
    (linSetMode q m (hist.foldl (fun z o => o.apply (linSetMode q) z) x).2).dS
      = (linSetMode q m y.2).dS := by
  constructor
  · intro f hf
    generalize (hist.foldl (fun z o => o.apply f z) x).2 = u
    generalize y.2 = v
    have hb : ∀ (m : Mode), (baseSetMode q m u).mode = (baseSetMode q m v).mode ∧
        (baseSetMode q m u).eM = (baseSetMode q m v).eM ∧
        (baseSetMode q m u).eKm = (baseSetMode q m v).eKm ∧
        (baseSetMode q m u).eKg = (baseSetMode q m v).eKg ∧
        (baseSetMode q m u).eS = (baseSetMode q m v).eS ∧
        (baseSetMode q m u).gS = (baseSetMode q m v).gS ∧
        (baseSetMode q m u).iS = (baseSetMode q m v).iS ∧
        (baseSetMode q m u).prim = (baseSetMode q m v).prim := by
      intro m; cases m <;> exact ⟨rfl, rfl, rfl, rfl, rfl, rfl, rfl, rfl⟩
    have hk : ∀ (m' m : Mode), (klTable m' m u).mode = (klTable m' m v).mode ∧
        (klTable m' m u).eM = (klTable m' m v).eM ∧
        (klTable m' m u).eKm = (klTable m' m v).eKm ∧
        (klTable m' m u).eKg = (klTable m' m v).eKg ∧
        (klTable m' m u).eS = (klTable m' m v).eS ∧
        (klTable m' m u).gS = (klTable m' m v).gS ∧
        (klTable m' m u).iS = (klTable m' m v).iS ∧
        (klTable m' m u).prim = (klTable m' m v).prim := by
      intro m' m; cases m <;> exact ⟨rfl, rfl, rfl, rfl, rfl, rfl, rfl, rfl⟩
    fin_cases hf
    · exact hb m
    · obtain ⟨h1, h2, h3, h4, h5, h6, h7, h8⟩ := hb (linEff q m)
      refine ⟨h1, h2, h3, ?_, h5, h6, ?_, h8⟩ <;> simp only [linSetMode, h4, h7]
    · obtain ⟨h1, h2, h3, h4, h5, h6, h7, h8⟩ := hb (if m = .rhsOnly then .static else m)
      refine ⟨rfl, h2, h3, h4, h5, h6, h7, ?_⟩; simp only [ulSetMode, h8]
    · obtain ⟨h1, h2, h3, h4, h5, h6, h7, h8⟩ := hb (if m = .rhsOnly then .static else m)
      refine ⟨rfl, h2, h3, h4, h5, h6, h7, ?_⟩; simp only [tlSetMode, ulSetMode, h8]
    · exact hk _ _
    · obtain ⟨h1, h2, h3, h4, h5, h6, h7, h8⟩ :=
        hk (if m = .dynamic ∧ q.isModal = true then .rhsOnly else m) (klEff q m)
      refine ⟨h1, h2, h3, h4, h5, h6, ?_, ?_⟩ <;> simp only [nlShellSetMode, klSetMode, h7, h8]
  · have key : ∀ (hist : List Op) (x : Nat × St), 0 ≤ x.2.dS →
        (0 < (hist.foldl (fun z o => o.apply (linSetMode q) z) x).2.dS ↔ 0 < x.2.dS) ∧
        0 ≤ (hist.foldl (fun z o => o.apply (linSetMode q) z) x).2.dS := by
      intro hist
      induction hist with
      | nil => intro x hx; exact ⟨Iff.rfl, hx⟩
      | cons o hist ih =>
        intro x hx
        have h1 : (0 < (o.apply (linSetMode q) x).2.dS ↔ 0 < x.2.dS) ∧
            0 ≤ (o.apply (linSetMode q) x).2.dS := by
          cases o with
          | mode m =>
            rw [show (Op.mode m).apply (linSetMode q) x = (x.1, linSetMode q m x.2) from rfl,
              dS_lin]
            split_ifs <;> constructor <;> omega
          | loadGradient => exact ⟨Iff.rfl, hx⟩
          | buffers n =>
            simp only [Op.apply, initLHSbuffers]
            split_ifs <;> exact ⟨Iff.rfl, hx⟩
        obtain ⟨a, b⟩ := ih _ h1.2
        exact ⟨a.trans h1.1, b⟩
    obtain ⟨h1, h2⟩ := key hist x hx
    have h3 := h1.trans hdual
    generalize (hist.foldl (fun z o => o.apply (linSetMode q) z) x).2 = u at h1 h2 h3
    rw [dS_lin, dS_lin]
    by_cases h : 0 < y.2.dS
    · rw [if_pos h, if_pos (h3.2 h)]
    · rw [if_neg h, if_neg (fun h' => h (h3.1 h'))]
      have h' : ¬ 0 < u.dS := fun h' => h (h3.1 h')
      omega

/-- Number of solution vectors, for every sequence of setIntegrationPrm calls on an integrand
that starts without time integration: there is at least one vector per consecutive state, and
if a Newmark scheme is active (`intPrm[2] ≠ 0`, no BDF) a dynamic solve, and a right-hand side
evaluation within it, keep displacement, velocity and acceleration for every state. -/
theorem C13_solution_vectors (q : Prm K) [OfNat K 2] (calls : List (Nat × K)) (s : St)
    (h0 : q.p2 = 0) (h1 : q.nCS ≤ q.nSV) (hb : q.bdf = false) (hn : 0 < q.nCS) :
    let r := calls.foldl (fun q c => setIntegrationPrm q c.1 c.2) q
    (r.nCS ≤ (baseSetMode r .static s).prim ∧ r.nCS ≤ (baseSetMode r .dynamic s).prim ∧
      r.nCS ≤ (baseSetMode r .norms s).prim) ∧
    (r.bdf = false → r.p2 ≠ 0 →
      3 * r.nCS ≤ (baseSetMode r .dynamic s).prim ∧
      3 * r.nCS ≤ (baseSetMode r .rhsOnly s).prim) := by
  intro r
  have key : ∀ (calls : List (Nat × K)) (q : Prm K),
      (0 < q.nCS ∧ q.nCS ≤ q.nSV ∧ (q.bdf = false → q.p2 ≠ 0 → 3 * q.nCS ≤ q.nSV)) →
      (let r := calls.foldl (fun q c => setIntegrationPrm q c.1 c.2) q
       0 < r.nCS ∧ r.nCS ≤ r.nSV ∧ (r.bdf = false → r.p2 ≠ 0 → 3 * r.nCS ≤ r.nSV)) := by
    intro calls
    induction calls with
    | nil => intro q h; exact h
    | cons c calls ih =>
      intro q h
      refine ih _ ?_
      obtain ⟨i, v⟩ := c
      rcases q with ⟨p2, p3, p4, nCS, nSV, bdf, isModal⟩
      simp only at h ⊢
      obtain ⟨ha, hb, hc⟩ := h
      unfold setIntegrationPrm
      by_cases h5 : i < 5
      · by_cases h2 : i = 2
        · subst h2
          by_cases hv : v = 0
          · simp [hv]; omega
          · by_cases hl : nSV < nCS * 3
            · simp [hv, hl]; omega
            · simp [hv, hl]; omega
        · by_cases h4 : i = 4
          · subst h4
            by_cases hv : v = 1
            · simp [hv]; exact ⟨ha, by omega, fun _ _ => by omega⟩
            · simp [hv]; exact ⟨ha, hb, hc⟩
          · simp [h5, h2, h4]; exact ⟨ha, hb, hc⟩
      · have h2 : i ≠ 2 := by omega
        have h4 : i ≠ 4 := by omega
        cases bdf
        · by_cases hl : nSV < 4
          · simp [h5, h2, h4, hl]
          · simp [h5, h2, h4, hl]; omega
        · simp [h5, h2, h4]; exact ⟨ha, hb⟩
  obtain ⟨ha, hb', hc⟩ := key calls q ⟨hn, h1, fun _ h => absurd h0 h⟩
  refine ⟨⟨hb', hb', ?_⟩, fun h1 h2 => ⟨hc h1 h2, ?_⟩⟩
  · show r.nCS ≤ if 0 < r.nCS then r.nCS else 1
    rw [if_pos ha]
  · have := hc h1 h2
    show 3 * r.nCS ≤ if r.nCS < r.nSV then r.nSV else 1
    rw [if_pos (show r.nCS < r.nSV from by
      have h1 : 0 < r.nCS := ha
      have h2 : 3 * r.nCS ≤ r.nSV := this
      omega)]
    exact this

/-- Selecting the HHT scheme reserves the two predictor vectors in addition, whatever was
configured before. -/
theorem C13_hht_vectors (q : Prm K) [OfNat K 2] (s : St) :
    (baseSetMode (setIntegrationPrm q 4 1) .dynamic s).prim
      = 3 * (setIntegrationPrm q 4 1).nCS + 2 := by
  simp [setIntegrationPrm, baseSetMode, basePrim, Nat.mul_comm]

/-! ### C66: the load gradient of the arc-length method -/

/-- Total Lagrangian formulation, arc-length mode: the body load gradient is accumulated in the
second vector, and that vector receives nothing else. -/
theorem C66_tl (q : Prm K) (s : St) (d : Dat) :
    tlDomain (tlSetMode q .arclen s) d =
      [.A 0] ++ sl (decide (¬ 0 < q.p3) && d.strains) [.A 0] ++ sl d.strains [.b 0] ++
        [.b 0] ++ [.b 1] := by
  by_cases h3 : 0 < q.p3 <;> simp [tlDomain, tlSetMode, ulSetMode, baseSetMode, baseSlots, sl, h3]

/-- Updated Lagrangian formulation, arc-length mode: the second vector, from which the solver
takes the load gradient, never receives the body load gradient; it is added to the load
vector (the residual) instead. -/
theorem C66_ul_violated (q : Prm K) (s : St) (d : Dat) :
    (ulSetMode q .arclen s).gS = 2 ∧ Slot.b 1 ∉ ulDomain (ulSetMode q .arclen s) d ∧
    (ulDomain (ulSetMode q .arclen s) d).count (.b 0) = (if d.strains then 3 else 2) := by
  rcases d with ⟨d1, d2, d3, d4, d5, d6, d7, d8, d9, d10, d11⟩
  by_cases h3 : 0 < q.p3 <;> cases d1 <;>
    simp [ulDomain, ulSetMode, baseSetMode, baseSlots, sl, h3]

/-! ### The hypotheses are met -/

/-- A three-state Newmark history: `nSV` grows from 1 to 3, and the dynamic mode uses it. -/
example : let q : Prm ℚ := ⟨0, 0, 0, 1, 1, false, false⟩
    let r := setIntegrationPrm (setIntegrationPrm q 2 1) 3 (-1)
    r.p2 ≠ 0 ∧ r.bdf = false ∧ r.nSV = 3 ∧
    (baseSetMode r .dynamic ⟨.static, 0, 1, 1, 1, 0, 1, 0, 1, false⟩).prim = 3 := by
  decide +kernel

/-- The linear element in dynamics with damping from a dual problem: hypotheses of
`C11_linear_partial` hold, and the accesses are not empty. -/
example : let q : Prm ℚ := ⟨1, -1, 0, 1, 3, false, false⟩
    let s : St := ⟨.init, 0, 0, 0, 0, 0, 0, 1, 0, false⟩
    linDomain (linSetMode q .dynamic s)
      ⟨true, true, true, true, true, true, true, true, true, true, true⟩ =
      [.A 2, .A 1, .b 0, .b 0, .b 0] := by decide +kernel

/-- Stored matrices in a dynamic analysis (hypothesis of `C11_reuse_partial`). -/
example : let q : Prm ℚ := ⟨1, 1, 0, 1, 3, false, false⟩
    let s : St := ⟨.init, 0, 0, 0, 0, 0, 0, 0, 0, false⟩
    (linSetMode q .dynamic s).eM ≠ 0 ∧
    linInitElement true (initLHSbuffers 0 (7, linSetMode q .dynamic s)).2 = [.A 2, .A 1] := by
  decide +kernel

end

end Verif.Modes

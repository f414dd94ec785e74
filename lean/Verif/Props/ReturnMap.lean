/-
Property C118: stress and history computed by the plastic material at a point.
-/
import Verif.Proofs.ReturnMap
import Verif.Spec.Plasticity
import Mathlib.Analysis.SpecialFunctions.ExpDeriv

set_option linter.unusedSectionVars false
set_option linter.unusedSimpArgs false
set_option linter.unusedVariables false

namespace Verif.Plastic

open Verif.Spec.Plasticity

/-- The stored components of the tensor with the given principal values. -/
theorem spectral_eq (l : V3) (N : M3) (i : Fin 6) : spectral l N i = tensor l N (p1 i) (p2 i) := by
  simp only [spectral, tensor, Matrix.mul_apply, Matrix.diagonal_apply, Matrix.transpose_apply,
    Fin.sum_univ_three]
  simp
  ring

theorem tensor_symm (l : V3) (N : M3) (a b : Fin 3) : tensor l N a b = tensor l N b a := by
  have : (tensor l N).transpose = tensor l N := by
    simp [tensor, Matrix.transpose_mul, Matrix.mul_assoc, Matrix.diagonal_transpose]
  exact congrFun (congrFun this b) a

theorem sym6_spectral (l : V3) (N : M3) : sym6 (spectral l N) = tensor l N := by
  funext a b
  fin_cases a <;> fin_cases b <;> simp [sym6, spectral_eq, p1, p2] <;> exact tensor_symm _ _ _ _

theorem sym6_pairs (b : M3) (hb : ∀ i j, b i j = b j i) : sym6 (fun i => b (p1 i) (p2 i)) = b := by
  funext i j
  fin_cases i <;> fin_cases j <;> simp [sym6, p1, p2] <;> exact hb _ _

theorem sym6_symm (v : Fin 6 → ℝ) (i j : Fin 3) : sym6 v i j = sym6 v j i := by
  fin_cases i <;> fin_cases j <;> rfl

theorem push_symm (A : M3) (v : Fin 6 → ℝ) (i j : Fin 3) :
    (A * sym6 v * A.transpose) i j = (A * sym6 v * A.transpose) j i := by
  have h : (sym6 v).transpose = sym6 v := by
    funext i j; exact sym6_symm v j i
  have : (A * sym6 v * A.transpose).transpose = A * sym6 v * A.transpose := by
    rw [Matrix.transpose_mul, Matrix.transpose_mul, Matrix.transpose_transpose, h, Matrix.mul_assoc]
  exact congrFun (congrFun this j) i

/-- The components of a stress tensor handed out for `ns` stored components. -/
def handedOut (ns : Nat) (T : M3) : List ℝ :=
  if ns = 3 then [T 0 0, T 1 1, T 0 1]
  else if ns = 4 then [T 0 0, T 1 1, T 2 2, T 0 1]
  else [T 0 0, T 1 1, T 2 2, T 0 1, T 1 2, T 2 0]

theorem output_sig (ns : Nat) (ll2 : V3) (N : M3) (J : ℝ) (h : Hist) (tau : V3) (d : M3) (ie : Nat) :
    (output ns ll2 N J h tau d ie).sig = handedOut ns ((1 / J) • tensor tau N) := by
  have e : ∀ i, spectral tau N i / J = ((1 / J) • tensor tau N) (p1 i) (p2 i) := by
    intro i
    rw [spectral_eq, Matrix.smul_apply, smul_eq_mul]
    ring
  show (kept ns).map (fun i => spectral tau N i / J) = _
  simp only [e]
  unfold kept handedOut
  split_ifs <;> simp [p1, p2]

/-- The result of an elastic evaluation. -/
theorem evaluate_elastic (p : List ℝ) (hfn : Option ((ℝ → ℝ) × (ℝ → ℝ)))
    (prin : M3 → Option (V3 × M3)) (ns : Nat) (h : Hist) (Fp Fc : M3) (it : Nat) (first : Bool)
    (m : Par) (hm : fetch p = .ok m) (hF : Fp.det ≠ 0 ∧ Fc.det ≠ 0) (ll2 : V3) (N : M3)
    (hpr : prin (Fc * Fp⁻¹ * sym6 h.ecg * (Fc * Fp⁻¹).transpose) = some (ll2, N))
    (hpos : ∀ i, 0 < ll2 i) (y : Yld)
    (hy : yfunc p hfn false h.epp (trial m h fun i => Real.log (Real.sqrt (ll2 i))).I1
      (trial m h fun i => Real.log (Real.sqrt (ll2 i))).J2
      (trial m h fun i => Real.log (Real.sqrt (ll2 i))).J3 = .ok y)
    (hel : ¬ (y.yield > -yieldTol m it ∧ flowAllowed m.istart it first = true)) :
    evaluate p hfn prin ns h Fp Fc it first = .ok (output ns ll2 N Fc.det
      { h with ecg := fun i => (Fc * Fp⁻¹ * sym6 h.ecg * (Fc * Fp⁻¹).transpose) (p1 i) (p2 i) }
      (trial m h fun i => Real.log (Real.sqrt (ll2 i))).tau (elasticTangent m) 0) := by
  have h1 : ¬ (Fp.det = 0 ∨ Fc.det = 0) := by push Not; exact hF
  have h2 : ¬ (ll2 0 ≤ 0 ∨ ll2 1 ≤ 0 ∨ ll2 2 ≤ 0) := by
    push Not; exact ⟨hpos 0, hpos 1, hpos 2⟩
  unfold evaluate
  rw [hm]
  simp only [Res.bind]
  rw [if_neg h1]
  simp only [hpr]
  rw [if_neg h2, hy]
  simp only [Res.bind]
  rw [if_neg hel]

/-- The result of a plastic evaluation. -/
theorem evaluate_plastic (p : List ℝ) (hfn : Option ((ℝ → ℝ) × (ℝ → ℝ)))
    (prin : M3 → Option (V3 × M3)) (ns : Nat) (h : Hist) (Fp Fc : M3) (it : Nat) (first : Bool)
    (m : Par) (hm : fetch p = .ok m) (hF : Fp.det ≠ 0 ∧ Fc.det ≠ 0) (ll2 : V3) (N : M3)
    (hpr : prin (Fc * Fp⁻¹ * sym6 h.ecg * (Fc * Fp⁻¹).transpose) = some (ll2, N))
    (hpos : ∀ i, 0 < ll2 i) (y : Yld)
    (hy : yfunc p hfn false h.epp (trial m h fun i => Real.log (Real.sqrt (ll2 i))).I1
      (trial m h fun i => Real.log (Real.sqrt (ll2 i))).J2
      (trial m h fun i => Real.log (Real.sqrt (ll2 i))).J3 = .ok y)
    (hpl : y.yield > -yieldTol m it ∧ flowAllowed m.istart it first = true)
    (r : Hist × V3 × M3 × Nat)
    (hr : plasticStep m (yfunc p hfn true) h (fun i => Real.log (Real.sqrt (ll2 i))) N it = .ok r) :
    evaluate p hfn prin ns h Fp Fc it first = .ok (output ns ll2 N Fc.det r.1 r.2.1 r.2.2.1 r.2.2.2) := by
  have h1 : ¬ (Fp.det = 0 ∨ Fc.det = 0) := by push Not; exact hF
  have h2 : ¬ (ll2 0 ≤ 0 ∨ ll2 1 ≤ 0 ∨ ll2 2 ≤ 0) := by
    push Not; exact ⟨hpos 0, hpos 1, hpos 2⟩
  unfold evaluate
  rw [hm]
  simp only [Res.bind]
  rw [if_neg h1]
  simp only [hpr]
  rw [if_neg h2, hy]
  simp only [Res.bind]
  rw [if_pos hpl, hr]

theorem len_sq {v : Fin 3 → ℝ} (h : 0 < len v) :
    len v * len v = v 0 ^ 2 + v 1 ^ 2 + v 2 ^ 2 :=
  Real.mul_self_sqrt (by positivity)

/-- A plastic step with a concave hardening curve solves the implicit equations. -/
theorem evaluate_step (p : List ℝ) (hfn : Option ((ℝ → ℝ) × (ℝ → ℝ)))
    (prin : M3 → Option (V3 × M3)) (ns : Nat) (h : Hist) (Fp Fc : M3) (it : Nat) (first : Bool)
    (m : Par) (hm : fetch p = .ok m) (hb : 0 < m.bulk) (hs : 0 < m.shear) (hy0 : 0 < m.y0)
    (H : ℝ) (hH : 0 ≤ H) (hk : m.hk = 2 / 3 * H)
    (hF : Fp.det ≠ 0 ∧ Fc.det ≠ 0) (ll2 : V3) (N : M3)
    (hpr : prin (Fc * Fp⁻¹ * sym6 h.ecg * (Fc * Fp⁻¹).transpose) = some (ll2, N))
    (hpos : ∀ i, 0 < ll2 i) (hne : ∃ i, ll2 i ≠ 1) (sy Yp : ℝ → ℝ)
    (hyf : Radial (yfunc p hfn true) 0 (fun e => Real.sqrt (2 / 3) * sy e) Yp h.epp)
    (hyf0 : ∀ i1 j2 j3, 0 < j2 → ∃ y, yfunc p hfn false h.epp i1 j2 j3 = .ok y ∧
      y.yield = Real.sqrt (2 * j2) - Real.sqrt (2 / 3) * sy h.epp)
    (hc : Concave (fun e => Real.sqrt (2 / 3) * sy e) Yp h.epp)
    (hY : epsZ < Real.sqrt (2 / 3) * sy h.epp) (hit : 0 < it)
    (hfl : flowAllowed m.istart it first = true)
    (hyield : Real.sqrt (2 / 3) * sy h.epp < len (dev fun j =>
      hencky m.bulk m.shear (fun i => Real.log (ll2 i) / 2) j - 2 / 3 * H * h.epl j)) :
    ∃ o g e tau f, evaluate p hfn prin ns h Fp Fc it first = .ok o ∧
      Step m.bulk m.shear H sy (fun i => Real.log (ll2 i) / 2) h.epl h.epp g e tau o.hist.epl
        o.hist.epp f ∧
      sym6 o.hist.ecg = tensor (fun a => Real.exp (2 * e a)) N ∧
      o.sig = handedOut ns ((1 / Fc.det) • tensor tau N) ∧
      0 ≤ f ∧ (o.ierr = 0 → f < 1 / 10 ^ 9 * m.y0) ∧ (o.ierr = 0 ∨ o.ierr = it) := by
  have hz : (0 : ℝ) < epsZ := by unfold epsZ; positivity
  have hkk : hkp m = 2 / 3 * H := by
    unfold hkp
    split_ifs with h
    · exact hk
    · have : m.hk ≤ 0 := not_lt.1 h
      rw [hk] at this
      linarith
  have heps : (fun i => Real.log (Real.sqrt (ll2 i))) = fun i => Real.log (ll2 i) / 2 := by
    funext i
    exact Real.log_sqrt (hpos i).le
  set eps : V3 := fun i => Real.log (ll2 i) / 2 with hepsd
  have hta : (trial m h eps).ta = dev fun j => hencky m.bulk m.shear eps j - 2 / 3 * H * h.epl j := by
    funext i
    show 2 * m.shear * (eps i - vsum eps * (1 / 3)) - m.hk * h.epl i +
      vsum (fun i => m.hk * h.epl i) * (1 / 3) = _
    simp only [dev, mean, hencky, vsum, hk]
    ring
  set xi := dev fun j => hencky m.bulk m.shear eps j - 2 / 3 * H * h.epl j with hxi
  have hrho : 0 < len xi := by linarith
  have hrr := len_sq hrho
  set n : V3 := fun i => xi i / len xi with hn
  have hn2 : n 0 * n 0 + n 1 * n 1 + n 2 * n 2 = 1 := by
    simp only [hn]
    field_simp
    linarith
  have htan : ∀ i, (trial m h eps).ta i = len xi * n i := by
    intro i
    rw [hta]
    simp only [hn]
    field_simp
  clear_value n
  have hne' : asum eps ≠ 0 := by
    obtain ⟨i, hi⟩ := hne
    have hl : eps i ≠ 0 := by
      simp only [hepsd]
      have := Real.log_ne_zero_of_pos_of_ne_one (hpos i) hi
      exact div_ne_zero this (by norm_num)
    have hp : 0 < |eps i| := abs_pos.2 hl
    have a0 := abs_nonneg (eps 0)
    have a1 := abs_nonneg (eps 1)
    have a2 := abs_nonneg (eps 2)
    unfold asum
    fin_cases i <;> simp only [Fin.zero_eta, Fin.mk_one, Fin.reduceFinMk] at hp <;> linarith
  have hJ2 : (trial m h eps).J2 = len xi * len xi / 2 := by
    show ((trial m h eps).ta 0 * (trial m h eps).ta 0 + (trial m h eps).ta 1 * (trial m h eps).ta 1 +
      (trial m h eps).ta 2 * (trial m h eps).ta 2) * (1 / 2) = _
    rw [hta, hrr]
    ring
  obtain ⟨hn1, g, g'', k1, k2, k3, k4, k5⟩ := plasticStep_concave m hb hs hy0 (yfunc p hfn true)
    (fun e => Real.sqrt (2 / 3) * sy e) Yp h hyf hc hY eps n hne' (len xi) htan hn2
    hyield.le N it
  rw [hkk] at k3 k4
  rw [← heps] at k5
  obtain ⟨y, hy, hyv⟩ := hyf0 (trial m h eps).I1 (trial m h eps).J2 (trial m h eps).J3
    (by rw [hJ2]; positivity)
  have hsq : Real.sqrt (2 * (len xi * len xi / 2)) = len xi := by
    rw [show 2 * (len xi * len xi / 2) = len xi ^ 2 by ring]
    exact Real.sqrt_sq hrho.le
  have hyt : y.yield > -yieldTol m it := by
    have : yieldTol m it = 0 := by
      unfold yieldTol
      rw [if_neg (fun h => absurd h.1 hit.ne')]
    rw [this, hyv, hJ2, hsq]
    linarith
  have ev := evaluate_plastic p hfn prin ns h Fp Fc it first m hm hF ll2 N hpr hpos y
    (by rw [heps]; exact hy) ⟨hyt, hfl⟩ _ k5
  rw [heps] at ev
  have hs23 : s23 = Real.sqrt (2 / 3) := rfl
  have hg0 : 0 ≤ g := le_trans k1 k2
  -- the final relative stress
  have hfin : dev (fun j => (2 * m.shear * (eps j - vsum eps * (1 / 3) - g * n j) +
      m.bulk * vsum eps) - 2 / 3 * H * (h.epl j + g * n j)) =
      fun i => (len xi - (2 * m.shear + 2 / 3 * H) * g) * n i := by
    funext i
    have hx := htan i
    rw [hta] at hx
    generalize len xi = L at hx ⊢
    rw [hxi] at hx
    simp only [dev, mean, hencky] at hx
    simp only [dev, mean, vsum]
    linear_combination hx + (2 * m.shear + 2 / 3 * H) * g * (1 / 3) * hn1
  have hlen : 0 < len xi - (2 * m.shear + 2 / 3 * H) * g := by
    have e1 : h.epp ≤ h.epp + s23 * g := by
      have : 0 ≤ s23 * g := mul_nonneg s23_pos'.le hg0
      linarith
    have := hc.mono (le_refl _) e1
    linarith
  have hnorm : len (fun i => (len xi - (2 * m.shear + 2 / 3 * H) * g) * n i) =
      len xi - (2 * m.shear + 2 / 3 * H) * g := by
    show Real.sqrt _ = _
    rw [show ((len xi - (2 * m.shear + 2 / 3 * H) * g) * n 0) ^ 2 +
      ((len xi - (2 * m.shear + 2 / 3 * H) * g) * n 1) ^ 2 +
      ((len xi - (2 * m.shear + 2 / 3 * H) * g) * n 2) ^ 2 =
      (len xi - (2 * m.shear + 2 / 3 * H) * g) ^ 2 by
        linear_combination (len xi - (2 * m.shear + 2 / 3 * H) * g) ^ 2 * hn2]
    exact Real.sqrt_sq hlen.le
  refine ⟨_, g, fun i => eps i - g * n i,
    fun i => 2 * m.shear * (eps i - vsum eps * (1 / 3) - g * n i) + m.bulk * vsum eps,
    len xi - (2 * m.shear + 2 / 3 * H) * g - Real.sqrt (2 / 3) * sy (h.epp + s23 * g), ev,
    ⟨hg0, ?_, ⟨n, ?_, ?_, fun i => rfl, fun i => rfl, fun i => ?_⟩, rfl, ?_⟩, ?_, ?_, k3, ?_, ?_⟩
  · funext i
    simp only [hencky, dev, mean, vsum]
    linear_combination (m.bulk * g - 2 * m.shear * g / 3) * hn1
  · show Real.sqrt (n 0 ^ 2 + n 1 ^ 2 + n 2 ^ 2) = 1
    rw [show n 0 ^ 2 + n 1 ^ 2 + n 2 ^ 2 = 1 by linear_combination hn2, Real.sqrt_one]
  · show (n 0 + n 1 + n 2) / 3 = 0
    rw [hn1]; simp
  · show dev (fun j => (2 * m.shear * (eps j - vsum eps * (1 / 3) - g * n j) +
      m.bulk * vsum eps) - 2 / 3 * H * (h.epl j + g * n j)) i =
      len (dev (fun j => (2 * m.shear * (eps j - vsum eps * (1 / 3) - g * n j) +
      m.bulk * vsum eps) - 2 / 3 * H * (h.epl j + g * n j))) * n i
    rw [hfin, hnorm]
  · show _ = len (dev (fun j => (2 * m.shear * (eps j - vsum eps * (1 / 3) - g * n j) +
      m.bulk * vsum eps) - 2 / 3 * H * (h.epl j + g * n j))) - _
    rw [hfin, hnorm]
    rfl
  · show sym6 (spectral (fun a => Real.exp (2 * (eps a - g * n a))) N) = _
    exact sym6_spectral _ N
  · exact output_sig ns ll2 N Fc.det _ _ _ _
  · intro hie
    have hie' : (if (len xi - (2 * m.shear + hkp m) * g'' -
        Real.sqrt (2 / 3) * sy (h.epp + s23 * g'')) / m.y0 ≥ tolc ∧ it > 0 then it else 0) = 0 := hie
    split_ifs at hie' with hcv
    · omega
    · have : (len xi - (2 * m.shear + hkp m) * g'' -
        Real.sqrt (2 / 3) * sy (h.epp + s23 * g'')) / m.y0 < tolc := by
        by_contra hcon
        exact hcv ⟨not_lt.1 hcon, hit⟩
      rw [div_lt_iff₀ hy0, hkk] at this
      have ht : tolc = 1 / 10 ^ 9 := rfl
      rw [← ht]
      exact lt_of_le_of_lt k4 this
  · show (if (len xi - (2 * m.shear + hkp m) * g'' -
        Real.sqrt (2 / 3) * sy (h.epp + s23 * g'')) / m.y0 ≥ tolc ∧ it > 0 then it else 0) = 0 ∨ 
        (if (len xi - (2 * m.shear + hkp m) * g'' -
        Real.sqrt (2 / 3) * sy (h.epp + s23 * g'')) / m.y0 ≥ tolc ∧ it > 0 then it else 0) = it
    split_ifs
    · exact Or.inr rfl
    · exact Or.inl rfl

/-- A plastic step with linear hardening, for criteria with or without a pressure term: the closed
form solution. -/
theorem evaluate_linear (p : List ℝ) (hfn : Option ((ℝ → ℝ) × (ℝ → ℝ)))
    (prin : M3 → Option (V3 × M3)) (ns : Nat) (h : Hist) (Fp Fc : M3) (it : Nat) (first : Bool)
    (m : Par) (hm : fetch p = .ok m) (hb : 0 < m.bulk) (hs : 0 < m.shear) (hy0 : 0 < m.y0)
    (H : ℝ) (hH : 0 ≤ H) (hk : m.hk = 2 / 3 * H)
    (hF : Fp.det ≠ 0 ∧ Fc.det ≠ 0) (ll2 : V3) (N : M3)
    (hpr : prin (Fc * Fp⁻¹ * sym6 h.ecg * (Fc * Fp⁻¹).transpose) = some (ll2, N))
    (hpos : ∀ i, 0 < ll2 i) (hne : ∃ i, ll2 i ≠ 1) (c Y0 hi : ℝ) (hhi : 0 ≤ hi)
    (hyf : Radial (yfunc p hfn true) c (fun e => s23 * Y0 + s23 * hi * e) (fun _ => s23 * (s23 * hi))
      h.epp)
    (hyf0 : ∀ i1 j2 j3, 0 < j2 → ∃ y, yfunc p hfn false h.epp i1 j2 j3 = .ok y ∧
      y.yield = Real.sqrt (2 * j2) + c * i1 - s23 * (Y0 + hi * h.epp))
    (hfl : flowAllowed m.istart it first = true) (xi : V3)
    (hxi : xi = fun j => hencky m.bulk m.shear (fun i => Real.log (ll2 i) / 2) j -
      2 / 3 * H * h.epl j) (g : ℝ)
    (hg : g = (len (dev xi) + c * (xi 0 + xi 1 + xi 2) - s23 * (Y0 + hi * h.epp)) /
      (2 * m.shear + 2 / 3 * H + c ^ 2 * (9 * m.bulk + 2 * H) + 2 / 3 * hi))
    (hyield : s23 * (Y0 + hi * h.epp) < len (dev xi) + c * (xi 0 + xi 1 + xi 2))
    (hside : 1 / 10 ^ 16 < len (dev xi) - (2 * m.shear + 2 / 3 * H) * g) :
    ∃ o nu e xi', evaluate p hfn prin ns h Fp Fc it first = .ok o ∧ 0 < g ∧ len nu = 1 ∧ mean nu = 0 ∧
      (∀ i, dev xi i = len (dev xi) * nu i) ∧
      e = (fun i => Real.log (ll2 i) / 2 - g * (nu i + c)) ∧
      xi' = (fun i => hencky m.bulk m.shear e i - 2 / 3 * H * o.hist.epl i) ∧
      sym6 o.hist.ecg = tensor (fun a => Real.exp (2 * e a)) N ∧
      (∀ i, o.hist.epl i = h.epl i + g * (nu i + c)) ∧ o.hist.epp = h.epp + Real.sqrt (2 / 3) * g ∧
      o.sig = handedOut ns ((1 / Fc.det) • tensor (hencky m.bulk m.shear e) N) ∧
      (∀ i, dev xi' i = len (dev xi') * nu i) ∧
      len (dev xi') + c * (xi' 0 + xi' 1 + xi' 2) = s23 * (Y0 + hi * o.hist.epp) ∧
      o.ierr = 0 ∧
      ((len (dev xi) + c * (xi 0 + xi 1 + xi 2) - s23 * (Y0 + hi * h.epp)) / m.y0 ≥ tolc →
        o.C = (kept ns).map fun i => (kept ns).map fun j =>
          tangent6 ll2 (hencky m.bulk m.shear e) (fun a b => 1 / 2 * (m.bulk +
            2 * m.shear * ((len (dev xi) - 2 * m.shear * g) / len (dev xi)) *
              ((if a = b then 1 else 0) - 1 / 3 - nu a * nu b) + 2 * m.shear * nu a * nu b -
            (2 * m.shear * nu a + 3 * m.bulk * c) * (2 * m.shear * nu b + 3 * m.bulk * c) /
              (2 * m.shear + 2 / 3 * H + c ^ 2 * (9 * m.bulk + 2 * H) + 2 / 3 * hi))) N Fc.det i j) := by
  have hz : (0 : ℝ) < 1 / 10 ^ 16 := by positivity
  have hss : s23 * s23 = 2 / 3 := Real.mul_self_sqrt (by norm_num)
  have hs23 := s23_pos'
  have ht : (0 : ℝ) < tolc := by unfold tolc; positivity
  have hkk : hkp m = 2 / 3 * H := by
    unfold hkp
    split_ifs with h
    · exact hk
    · have : m.hk ≤ 0 := not_lt.1 h
      rw [hk] at this
      linarith
  have heps : (fun i => Real.log (Real.sqrt (ll2 i))) = fun i => Real.log (ll2 i) / 2 := by
    funext i
    exact Real.log_sqrt (hpos i).le
  set eps : V3 := fun i => Real.log (ll2 i) / 2 with hepsd
  have hB : 0 < 2 * m.shear + 2 / 3 * H + c ^ 2 * (9 * m.bulk + 2 * H) + 2 / 3 * hi := by positivity
  have hg0 : 0 < g := by rw [hg]; exact div_pos (by linarith) hB
  have hgB : g * (2 * m.shear + 2 / 3 * H + c ^ 2 * (9 * m.bulk + 2 * H) + 2 / 3 * hi) =
      len (dev xi) + c * (xi 0 + xi 1 + xi 2) - s23 * (Y0 + hi * h.epp) := by
    rw [hg]; exact div_mul_cancel₀ _ hB.ne'
  have hrho : 0 < len (dev xi) := by
    have : 0 ≤ (2 * m.shear + 2 / 3 * H) * g := by positivity
    linarith
  have hta : (trial m h eps).ta = dev xi := by
    funext i
    show 2 * m.shear * (eps i - vsum eps * (1 / 3)) - m.hk * h.epl i +
      vsum (fun i => m.hk * h.epl i) * (1 / 3) = _
    simp only [hxi, dev, mean, hencky, vsum, hk]
    ring
  have hI1 : (trial m h eps).I1 = xi 0 + xi 1 + xi 2 := by
    show 3 * (m.bulk * vsum eps - vsum (fun i => m.hk * h.epl i) * (1 / 3)) = _
    simp only [hxi, dev, mean, hencky, vsum, hk]
    ring
  have hrr := len_sq hrho
  have hn2 : dev xi 0 / len (dev xi) * (dev xi 0 / len (dev xi)) +
      dev xi 1 / len (dev xi) * (dev xi 1 / len (dev xi)) +
      dev xi 2 / len (dev xi) * (dev xi 2 / len (dev xi)) = 1 := by
    field_simp
    linarith
  have hdn : ∀ i, dev xi i = len (dev xi) * (dev xi i / len (dev xi)) := by
    intro i
    field_simp
  obtain ⟨n, hn⟩ : ∃ n : V3, n = fun i => dev xi i / len (dev xi) := ⟨_, rfl⟩
  have hn2 : n 0 * n 0 + n 1 * n 1 + n 2 * n 2 = 1 := by rw [hn]; exact hn2
  have hdn : ∀ i, dev xi i = len (dev xi) * n i := by rw [hn]; exact hdn
  clear hn
  have htan : ∀ i, (trial m h eps).ta i = len (dev xi) * n i := by
    intro i
    rw [hta]
    exact hdn i
  have hne' : asum eps ≠ 0 := by
    obtain ⟨i, hi⟩ := hne
    have hl : eps i ≠ 0 := by
      simp only [hepsd]
      have := Real.log_ne_zero_of_pos_of_ne_one (hpos i) hi
      exact div_ne_zero this (by norm_num)
    have hp : 0 < |eps i| := abs_pos.2 hl
    have a0 := abs_nonneg (eps 0)
    have a1 := abs_nonneg (eps 1)
    have a2 := abs_nonneg (eps 2)
    unfold asum
    fin_cases i <;> simp only [Fin.zero_eta, Fin.mk_one, Fin.reduceFinMk] at hp <;> linarith
  have ho := onRay_trial m h eps n (len (dev xi)) htan hrho.ne' hn2
  have htr := trial_ray m hb.ne' hs.ne' h eps n (len (dev xi)) c hn2 htan
  have hepp : (trial m h eps).epp = h.epp := rfl
  have hn1 := ho.hn1
  obtain ⟨ff, hff⟩ : ∃ x : ℝ, x = len (dev xi) + c * (xi 0 + xi 1 + xi 2) - s23 * (Y0 + hi * h.epp) :=
    ⟨_, rfl⟩
  have hff0 : 0 < ff := by rw [hff]; linarith
  have hlin := ray_linear m hb hs hy0 (yfunc p hfn true) c (s23 * Y0) (s23 * hi) (trial m h eps)
    (by rw [hepp]; exact hyf) (by positivity) eps n (len (dev xi)) ho g
    (by
      rw [hg, hkk, hI1, hepp, ← mul_assoc s23 s23 hi, hss]
      congr 1 <;> ring)
    (by rw [hI1, hepp]; linarith)
    (by
      have : epsZ = 1 / 10 ^ 16 := rfl
      have : 0 ≤ (2 * m.shear + 2 / 3 * H) * g := by positivity
      linarith)
    (by rw [hkk]; exact hside) 47 (fun _ => 0) (fun _ _ => 0) 0
  rw [← htr, hI1, hepp, show len (dev xi) + c * (xi 0 + xi 1 + xi 2) - (s23 * Y0 + s23 * hi * h.epp) =
    ff by rw [hff]; ring] at hlin
  have hr1 : 0 < len (dev xi) - (2 * m.shear + 2 / 3 * H) * g := by linarith
  have hnn : (fun i => n i + c) ≠ 0 := by
    intro h0
    have e0 : n 0 + c = 0 := congrFun h0 0
    have e1 : n 1 + c = 0 := congrFun h0 1
    have e2 : n 2 + c = 0 := congrFun h0 2
    have hc : c = 0 := by linarith
    have : n 0 = 0 := by linarith
    have : n 1 = 0 := by linarith
    have : n 2 = 0 := by linarith
    simp_all
  -- the tangent exists
  obtain ⟨s, hs'⟩ : ∃ s, s = ray m (trial m h eps) eps n (len (dev xi)) c g (fun i => n i + c)
        (if ff / m.y0 ≥ tolc then 0 else ff / m.y0)
        (if ff / m.y0 ≥ tolc then
          rayFss n (len (dev xi) - (2 * m.shear + hkp m) * g) g else rayFss n (len (dev xi)) 0)
        (s23 * (s23 * hi)) := ⟨_, rfl⟩
  rw [← hs'] at hlin
  have hpsd : PSD s.fss := by
    have e : s.fss = if ff / m.y0 ≥ tolc then
          rayFss n (len (dev xi) - (2 * m.shear + hkp m) * g) g else rayFss n (len (dev xi)) 0 := by
      rw [hs']; rfl
    rw [e]
    split_ifs
    · exact rayFss_psd n _ _ (by rw [hkk]; exact hr1) hg0.le hn1 hn2
    · exact rayFss_psd n _ _ hrho (le_refl 0) hn1 hn2
  have htg : ∃ d, plasticTangent m s = .ok d := by
    have hx : ∀ a : Fin 3, ∃ x, locSolve m s.fss s.nn s.ypr (fun i => if i = a then 1 / 2 else 0)
        (fun _ => 0) 0 = some x := fun a =>
      locSolve_exists m hb hs s.fss hpsd s.nn (by rw [hs']; exact hnn) s.ypr
        (by rw [hs']; show 0 ≤ s23 * (s23 * hi); positivity) _ _ _
    obtain ⟨x0, h0⟩ := hx 0
    obtain ⟨x1, h1⟩ := hx 1
    obtain ⟨x2, h2⟩ := hx 2
    refine ⟨fun a b => (![x0.1, x1.1, x2.1] (min a b)) (max a b), ?_⟩
    unfold plasticTangent
    simp only [h0, h1, h2]
  obtain ⟨d, hd⟩ := htg
  have hdv : ff / m.y0 ≥ tolc → d = fun a b => 1 / 2 * (m.bulk +
      2 * m.shear * ((len (dev xi) - 2 * m.shear * g) / len (dev xi)) *
        ((if a = b then 1 else 0) - 1 / 3 - n a * n b) + 2 * m.shear * n a * n b -
      (2 * m.shear * n a + 3 * m.bulk * c) * (2 * m.shear * n b + 3 * m.bulk * c) /
        (2 * m.shear + 2 / 3 * H + c ^ 2 * (9 * m.bulk + 2 * H) + 2 / 3 * hi)) := by
    intro hcv
    have e : s.fss = rayFss n (len (dev xi) - (2 * m.shear + hkp m) * g) g := by
      rw [hs']
      exact if_pos hcv
    have t := ray_tangent_c m hb hs s n (len (dev xi) - (2 * m.shear + hkp m) * g) g c
      (by rw [hkk]; exact hr1) hg0.le hn1 hn2 (fun i => by rw [hs']; rfl) e
      (by rw [hs']; show 0 ≤ s23 * (s23 * hi); positivity)
    have hyp : s.ypr = 2 / 3 * hi := by
      rw [hs']
      show s23 * (s23 * hi) = _
      rw [← mul_assoc, hss]
    rw [hd] at t
    rw [Res.ok.inj t, hyp, hkk,
      show len (dev xi) - (2 * m.shear + 2 / 3 * H) * g + 2 / 3 * H * g =
        len (dev xi) - 2 * m.shear * g by ring,
      show len (dev xi) - (2 * m.shear + 2 / 3 * H) * g + (2 * m.shear + 2 / 3 * H) * g =
        len (dev xi) by ring,
      show c ^ 2 * (9 * m.bulk + 3 * (2 / 3 * H)) = c ^ 2 * (9 * m.bulk + 2 * H) by ring]
  have hcond : ¬ (m.bulk = 0 ∨ m.shear = 0 ∨ asum eps = 0 ∨ m.y0 = 0) := by
    push Not
    exact ⟨hb.ne', hs.ne', hne', hy0.ne'⟩
  have hps : plasticStep m (yfunc p hfn true) h eps N it = .ok
      (⟨spectral (fun a => Real.exp (2 * s.epsE a)) N, s.epp, fun i => h.epl i + s.gam * s.nn i⟩,
       s.tau, d, if s.rerr ≥ tolc ∧ it > 0 then it else 0) := by
    unfold plasticStep
    rw [if_neg hcond]
    simp only []
    have hl : rmLoop (rmStep m (yfunc p hfn true) eps (trial m h eps).alp h.epp) maxIter
        (trial m h eps) = .ok s := hlin
    rw [hl]
    simp only [Res.bind]
    rw [hd]
  have hJ2 : (trial m h eps).J2 = len (dev xi) * len (dev xi) / 2 := by
    show ((trial m h eps).ta 0 * (trial m h eps).ta 0 + (trial m h eps).ta 1 * (trial m h eps).ta 1 +
      (trial m h eps).ta 2 * (trial m h eps).ta 2) * (1 / 2) = _
    rw [hta, hrr]
    ring
  obtain ⟨y, hy, hyv⟩ := hyf0 (trial m h eps).I1 (trial m h eps).J2 (trial m h eps).J3
    (by rw [hJ2]; positivity)
  have hsq : Real.sqrt (2 * (len (dev xi) * len (dev xi) / 2)) = len (dev xi) := by
    rw [show 2 * (len (dev xi) * len (dev xi) / 2) = len (dev xi) ^ 2 by ring]
    exact Real.sqrt_sq hrho.le
  have hyt : y.yield > -yieldTol m it := by
    have : 0 ≤ yieldTol m it := by
      unfold yieldTol
      split_ifs
      · positivity
      · exact le_refl 0
    rw [hyv, hJ2, hsq, hI1]
    linarith
  have ev := evaluate_plastic p hfn prin ns h Fp Fc it first m hm hF ll2 N hpr hpos y
    (by rw [heps]; exact hy) ⟨hyt, hfl⟩ _ (by rw [heps]; exact hps)
  have hE : s.epsE = fun i => eps i - g * (n i + c) := by rw [hs']; rfl
  have hT : s.tau = hencky m.bulk m.shear (fun i => eps i - g * (n i + c)) := by
    rw [hs']
    funext i
    show (trial m h eps).tau i - g * (2 * m.shear * n i + 3 * m.bulk * c) = _
    rw [ho.htau i]
    simp only [hencky, dev, mean, vsum]
    linear_combination (m.bulk * g - 2 * m.shear * g / 3) * hn1
  have hP : (fun i => h.epl i + s.gam * s.nn i) = fun i => h.epl i + g * (n i + c) := by
    rw [hs']; rfl
  have hA : s.epp = h.epp + Real.sqrt (2 / 3) * g := by rw [hs']; rfl
  have hR : (if s.rerr ≥ tolc ∧ it > 0 then it else 0) = 0 := by
    have e : s.rerr = if ff / m.y0 ≥ tolc then 0 else ff / m.y0 := by rw [hs']; rfl
    rw [if_neg]
    rintro ⟨h1, -⟩
    rw [e] at h1
    split_ifs at h1 with h2
    · exact absurd h1 (not_le.2 ht)
    · exact h2 h1
  rw [hE, hT, hP, hA, hR] at ev
  have hdx : ∀ i, dev (fun i => hencky m.bulk m.shear (fun i => eps i - g * (n i + c)) i -
      2 / 3 * H * (h.epl i + g * (n i + c))) i = (len (dev xi) - (2 * m.shear + 2 / 3 * H) * g) * n i := by
    intro i
    have hx := hdn i
    generalize len (dev xi) = L at hx ⊢
    rw [hxi] at hx
    simp only [dev, mean, hencky] at hx ⊢
    linear_combination hx + (2 * m.shear + 2 / 3 * H) * g * (1 / 3) * hn1
  have hnorm : len (dev (fun i => hencky m.bulk m.shear (fun i => eps i - g * (n i + c)) i -
      2 / 3 * H * (h.epl i + g * (n i + c)))) = len (dev xi) - (2 * m.shear + 2 / 3 * H) * g := by
    rw [funext hdx]
    show Real.sqrt _ = _
    rw [show ((len (dev xi) - (2 * m.shear + 2 / 3 * H) * g) * n 0) ^ 2 +
      ((len (dev xi) - (2 * m.shear + 2 / 3 * H) * g) * n 1) ^ 2 +
      ((len (dev xi) - (2 * m.shear + 2 / 3 * H) * g) * n 2) ^ 2 =
      (len (dev xi) - (2 * m.shear + 2 / 3 * H) * g) ^ 2 by
        linear_combination (len (dev xi) - (2 * m.shear + 2 / 3 * H) * g) ^ 2 * hn2]
    exact Real.sqrt_sq hr1.le
  refine ⟨_, n, _, _, ev, hg0, ?_, ?_, hdn, rfl, rfl,
    sym6_spectral (fun a => Real.exp (2 * (eps a - g * (n a + c)))) N, fun i => rfl, rfl,
    output_sig ns ll2 N Fc.det _ _ _ _, ?_, ?_, rfl, fun hcv => ?_⟩
  · show Real.sqrt (n 0 ^ 2 + n 1 ^ 2 + n 2 ^ 2) = 1
    rw [show n 0 ^ 2 + n 1 ^ 2 + n 2 ^ 2 = 1 by linear_combination hn2, Real.sqrt_one]
  · show (n 0 + n 1 + n 2) / 3 = 0
    rw [hn1]; simp
  · intro i
    refine (hdx i).trans ?_
    exact congrArg (fun x => x * n i) hnorm.symm
  · show len (dev (fun i => hencky m.bulk m.shear (fun i => eps i - g * (n i + c)) i -
      2 / 3 * H * (h.epl i + g * (n i + c)))) + c *
      ((hencky m.bulk m.shear (fun i => eps i - g * (n i + c)) 0 -
      2 / 3 * H * (h.epl 0 + g * (n 0 + c))) +
      (hencky m.bulk m.shear (fun i => eps i - g * (n i + c)) 1 -
      2 / 3 * H * (h.epl 1 + g * (n 1 + c))) +
      (hencky m.bulk m.shear (fun i => eps i - g * (n i + c)) 2 -
      2 / 3 * H * (h.epl 2 + g * (n 2 + c)))) = s23 * (Y0 + hi * (h.epp + s23 * g))
    rw [hnorm]
    generalize len (dev xi) = L at hgB ⊢
    rw [hxi] at hgB
    simp only [hencky, dev, mean] at hgB ⊢
    linear_combination -hgB - 3 * c * g * (m.bulk + 2 / 9 * H) * hn1 - hi * g * hss
  · rw [← hff] at hcv
    rw [hdv hcv]
    rfl

theorem flow_of (ist : Int) (it : Nat) (first : Bool) (hit : 0 < it)
    (hst : ¬ (first = true ∧ 1 < ist ∧ (it : Int) ≤ ist)) : flowAllowed ist it first = true := by
  unfold flowAllowed
  rw [if_neg hst]
  have : (it == 0) = false := by simpa using hit.ne'
  simp [this]

theorem radial_ok (r : Res Yld) (j2 : ℝ) (hj : 0 < j2) (hz : epsZ < Real.sqrt (2 * j2))
    (i1 Yp Y b : ℝ)
    (hr : r = .ok (misesD true (if j2 > 0 then Real.sqrt (2 * j2) else 0)
      { Ypr := Yp, YY := b, yield := (if j2 > 0 then Real.sqrt (2 * j2) else 0) - b }))
    (hb : b = Y) :
    r = .ok { f1 := 0, f2 := 1 / Real.sqrt (2 * j2), f22 := -(1 / Real.sqrt (2 * j2)) ^ 3, Ypr := Yp,
              YY := Y, yield := Real.sqrt (2 * j2) + 0 * i1 - Y } := by
  rw [hr, hb, if_pos hj, misesD, if_pos ⟨rfl, hz⟩]
  simp

theorem radial_ok0 (r : Res Yld) (j2 : ℝ) (hj : 0 < j2) (Yp Y b : ℝ)
    (hr : r = .ok (misesD false (if j2 > 0 then Real.sqrt (2 * j2) else 0)
      { Ypr := Yp, YY := b, yield := (if j2 > 0 then Real.sqrt (2 * j2) else 0) - b }))
    (hb : b = Y) : ∃ y, r = .ok y ∧ y.yield = Real.sqrt (2 * j2) - Y := by
  refine ⟨_, hr, ?_⟩
  rw [misesD, if_neg (by simp), if_pos hj, hb]

section parameters
variable (q0 q1 q2 q3 K G h hk ty Y0 Yinf beta ist : ℝ) (l : List ℝ)

theorem fetch_list : fetch (q0 :: q1 :: q2 :: q3 :: K :: G :: h :: hk :: ty :: Y0 :: Yinf :: beta ::
    ist :: l) = .ok ⟨K, G, s23 * Y0, 2 / 3 * hk, toInt ist⟩ := rfl

/-- **C118** (von Mises with saturating hardening). In an equilibrium iteration, when the trial
stress is outside of the yield surface, the evaluation solves the implicit equations of the plastic
step: elastic law, associated flow, isotropic and kinematic hardening. The final stress is not inside
of the yield surface, and outside by less than `10⁻⁹` of its radius if no divergence is reported. -/
theorem C118_mises (hfn : Option ((ℝ → ℝ) × (ℝ → ℝ))) (hty : toInt ty = 1) (hK : 0 < K) (hG : 0 < G)
    (hh : 0 ≤ h) (hhk : 0 ≤ hk) (hbe : 0 ≤ beta) (hYi : Y0 ≤ Yinf)
    (hY0 : 1 / 10 ^ 16 < Real.sqrt (2 / 3) * Y0)
    (prin : M3 → Option (V3 × M3)) (ns : Nat) (H : Hist) (hepp : 0 ≤ H.epp) (Fp Fc : M3) (it : Nat)
    (first : Bool) (hF : Fp.det ≠ 0 ∧ Fc.det ≠ 0) (ll2 : V3) (N : M3)
    (hpr : prin (Fc * Fp⁻¹ * sym6 H.ecg * (Fc * Fp⁻¹).transpose) = some (ll2, N))
    (hpos : ∀ i, 0 < ll2 i) (hne : ∃ i, ll2 i ≠ 1) (hit : 0 < it)
    (hst : ¬ (first = true ∧ 1 < toInt ist ∧ (it : Int) ≤ toInt ist))
    (hyield : Real.sqrt (2 / 3) * (Yinf + (Y0 - Yinf) * Real.exp (-beta * H.epp) + h * H.epp) <
      len (dev fun j => hencky K G (fun i => Real.log (ll2 i) / 2) j - 2 / 3 * hk * H.epl j)) :
    ∃ o g e tau f, evaluate (q0 :: q1 :: q2 :: q3 :: K :: G :: h :: hk :: ty :: Y0 :: Yinf :: beta ::
        ist :: l) hfn prin ns H Fp Fc it first = .ok o ∧
      Step K G hk (fun a => Yinf + (Y0 - Yinf) * Real.exp (-beta * a) + h * a)
        (fun i => Real.log (ll2 i) / 2) H.epl H.epp g e tau o.hist.epl o.hist.epp f ∧
      sym6 o.hist.ecg = tensor (fun a => Real.exp (2 * e a)) N ∧
      o.sig = handedOut ns ((1 / Fc.det) • tensor tau N) ∧
      0 ≤ f ∧ (o.ierr = 0 → f < 1 / 10 ^ 9 * (Real.sqrt (2 / 3) * Y0)) ∧
      (o.ierr = 0 ∨ o.ierr = it) := by
  have hs := s23_pos'
  have hs2 : Real.sqrt (2 / 3) = s23 := rfl
  have hss : s23 * s23 = 2 / 3 := Real.mul_self_sqrt (by norm_num)
  rw [hs2] at hY0 hyield ⊢
  have hz : (0 : ℝ) < 1 / 10 ^ 16 := by positivity
  have hc : Concave (fun e => s23 * (Yinf + (Y0 - Yinf) * Real.exp (-beta * e) + h * e))
      (fun e => 2 / 3 * h - s23 * beta * ((s23 * Y0 - s23 * Yinf) * Real.exp (-beta * e))) H.epp := by
    refine ⟨fun a b _ _ => ?_, fun a _ => ?_⟩
    · have ex : Real.exp (-beta * a) * (1 - beta * (b - a)) ≤ Real.exp (-beta * b) := by
        have e1 : Real.exp (-beta * b) = Real.exp (-beta * a) * Real.exp (-(beta * (b - a))) := by
          rw [← Real.exp_add]; congr 1; ring
        rw [e1]
        refine mul_le_mul_of_nonneg_left ?_ (Real.exp_pos _).le
        have := Real.add_one_le_exp (-(beta * (b - a)))
        linarith
      have e2 : (2 / 3 * h - s23 * beta * ((s23 * Y0 - s23 * Yinf) * Real.exp (-beta * a))) / s23 *
          (b - a) = s23 * (h * (b - a)) + s23 * ((Yinf - Y0) * (Real.exp (-beta * a) * (beta * (b - a)))) := by
        rw [← hss]
        field_simp
        ring
      rw [e2]
      have hp : 0 ≤ s23 * (Yinf - Y0) := mul_nonneg hs.le (by linarith)
      nlinarith [mul_le_mul_of_nonneg_left ex hp]
    · have e3 : 2 / 3 * h - s23 * beta * ((s23 * Y0 - s23 * Yinf) * Real.exp (-beta * a)) =
          2 / 3 * h + s23 * s23 * (beta * ((Yinf - Y0) * Real.exp (-beta * a))) := by ring
      rw [e3]
      have : 0 ≤ Yinf - Y0 := by linarith
      have := (Real.exp_pos (-beta * a)).le
      positivity
  have hYe : epsZ < s23 * (Yinf + (Y0 - Yinf) * Real.exp (-beta * H.epp) + h * H.epp) := by
    have hle : Real.exp (-beta * H.epp) ≤ 1 := Real.exp_le_one_iff.2 (by nlinarith)
    have h1 : Y0 ≤ Yinf + (Y0 - Yinf) * Real.exp (-beta * H.epp) + h * H.epp := by
      nlinarith [mul_nonneg hh hepp]
    have : epsZ = 1 / 10 ^ 16 := rfl
    rw [this]
    exact lt_of_lt_of_le hY0 (mul_le_mul_of_nonneg_left h1 hs.le)
  have hy : 0 < s23 * Y0 := lt_trans hz hY0
  obtain ⟨o, g, e, tau, f, r⟩ := evaluate_step (q0 :: q1 :: q2 :: q3 :: K :: G :: h :: hk :: ty :: Y0 ::
    Yinf :: beta :: ist :: l) hfn prin ns H Fp Fc it first _
    (fetch_list q0 q1 q2 q3 K G h hk ty Y0 Yinf beta ist l) hK hG hy hk hhk rfl hF ll2 N hpr hpos hne
    (fun a => Yinf + (Y0 - Yinf) * Real.exp (-beta * a) + h * a) _ (by
      intro e _ i1 j2 j3 hj hz
      refine radial_ok _ j2 hj hz i1 _ _ (s23 * Yinf + (s23 * Y0 - s23 * Yinf) *
        Real.exp (-beta * e) + s23 * h * e) ?_ (by rw [hs2]; ring)
      simp only [yfunc, List.getElem?_cons_succ, List.getElem?_cons_zero, hty, if_true]) (by
      intro i1 j2 j3 hj
      refine radial_ok0 _ j2 hj (2 / 3 * h - s23 * beta * ((s23 * Y0 - s23 * Yinf) *
        Real.exp (-beta * H.epp))) _ (s23 * Yinf + (s23 * Y0 - s23 * Yinf) *
        Real.exp (-beta * H.epp) + s23 * h * H.epp) ?_ (by rw [hs2]; ring)
      simp only [yfunc, List.getElem?_cons_succ, List.getElem?_cons_zero, hty, if_true]) hc hYe hit (flow_of _ it first hit hst) hyield
  exact ⟨o, g, e, tau, f, r⟩

/-- **C118** (Voce). The same for the criterion with two saturating hardening terms. -/
theorem C118_voce (v13 v14 : ℝ) (hfn : Option ((ℝ → ℝ) × (ℝ → ℝ))) (hty : toInt ty = 6) (hK : 0 < K)
    (hG : 0 < G) (hh : 0 ≤ h) (hhk : 0 ≤ hk) (hbe : 0 ≤ beta) (hYi : 0 ≤ Yinf) (hv13 : 0 ≤ v13)
    (hv14 : 0 ≤ v14) (hY0 : 1 / 10 ^ 16 < Real.sqrt (2 / 3) * Y0)
    (prin : M3 → Option (V3 × M3)) (ns : Nat) (H : Hist) (hepp : 0 ≤ H.epp) (Fp Fc : M3) (it : Nat)
    (first : Bool) (hF : Fp.det ≠ 0 ∧ Fc.det ≠ 0) (ll2 : V3) (N : M3)
    (hpr : prin (Fc * Fp⁻¹ * sym6 H.ecg * (Fc * Fp⁻¹).transpose) = some (ll2, N))
    (hpos : ∀ i, 0 < ll2 i) (hne : ∃ i, ll2 i ≠ 1) (hit : 0 < it)
    (hst : ¬ (first = true ∧ 1 < toInt ist ∧ (it : Int) ≤ toInt ist))
    (hyield : Real.sqrt (2 / 3) * (Y0 + Yinf * (1 - Real.exp (-beta * H.epp)) +
        v13 * (1 - Real.exp (-v14 * H.epp)) + h * H.epp) <
      len (dev fun j => hencky K G (fun i => Real.log (ll2 i) / 2) j - 2 / 3 * hk * H.epl j)) :
    ∃ o g e tau f, evaluate (q0 :: q1 :: q2 :: q3 :: K :: G :: h :: hk :: ty :: Y0 :: Yinf :: beta ::
        ist :: v13 :: v14 :: l) hfn prin ns H Fp Fc it first = .ok o ∧
      Step K G hk (fun a => Y0 + Yinf * (1 - Real.exp (-beta * a)) +
        v13 * (1 - Real.exp (-v14 * a)) + h * a)
        (fun i => Real.log (ll2 i) / 2) H.epl H.epp g e tau o.hist.epl o.hist.epp f ∧
      sym6 o.hist.ecg = tensor (fun a => Real.exp (2 * e a)) N ∧
      o.sig = handedOut ns ((1 / Fc.det) • tensor tau N) ∧
      0 ≤ f ∧ (o.ierr = 0 → f < 1 / 10 ^ 9 * (Real.sqrt (2 / 3) * Y0)) ∧
      (o.ierr = 0 ∨ o.ierr = it) := by
  have hs := s23_pos'
  have hs2 : Real.sqrt (2 / 3) = s23 := rfl
  have hss : s23 * s23 = 2 / 3 := Real.mul_self_sqrt (by norm_num)
  rw [hs2] at hY0 hyield ⊢
  have hz : (0 : ℝ) < 1 / 10 ^ 16 := by positivity
  have h1 : ¬ toInt ty = 1 := by rw [hty]; decide
  have h2 : ¬ toInt ty = 2 := by rw [hty]; decide
  have h3 : ¬ toInt ty = 3 := by rw [hty]; decide
  have h4 : ¬ toInt ty = 4 := by rw [hty]; decide
  have h5 : ¬ toInt ty = 5 := by rw [hty]; decide
  have ex : ∀ c a b : ℝ, Real.exp (-c * a) * (1 - c * (b - a)) ≤ Real.exp (-c * b) := by
    intro c a b
    have e1 : Real.exp (-c * b) = Real.exp (-c * a) * Real.exp (-(c * (b - a))) := by
      rw [← Real.exp_add]; congr 1; ring
    rw [e1]
    refine mul_le_mul_of_nonneg_left ?_ (Real.exp_pos _).le
    have := Real.add_one_le_exp (-(c * (b - a)))
    linarith
  have hc : Concave (fun e => s23 * (Y0 + Yinf * (1 - Real.exp (-beta * e)) +
        v13 * (1 - Real.exp (-v14 * e)) + h * e))
      (fun e => 2 / 3 * h + s23 * (beta * (s23 * Yinf * Real.exp (-beta * e)) +
        v14 * (s23 * v13 * Real.exp (-v14 * e)))) H.epp := by
    refine ⟨fun a b _ _ => ?_, fun a _ => ?_⟩
    · have e2 : (2 / 3 * h + s23 * (beta * (s23 * Yinf * Real.exp (-beta * a)) +
          v14 * (s23 * v13 * Real.exp (-v14 * a)))) / s23 * (b - a) =
          s23 * (h * (b - a)) + s23 * Yinf * (Real.exp (-beta * a) * (beta * (b - a))) +
          s23 * v13 * (Real.exp (-v14 * a) * (v14 * (b - a))) := by
        rw [← hss]
        field_simp
        ring
      rw [e2]
      nlinarith [mul_le_mul_of_nonneg_left (ex beta a b) (mul_nonneg hs.le hYi),
        mul_le_mul_of_nonneg_left (ex v14 a b) (mul_nonneg hs.le hv13)]
    · have := (Real.exp_pos (-beta * a)).le
      have := (Real.exp_pos (-v14 * a)).le
      positivity
  have hYe : epsZ < s23 * (Y0 + Yinf * (1 - Real.exp (-beta * H.epp)) +
        v13 * (1 - Real.exp (-v14 * H.epp)) + h * H.epp) := by
    have hle : Real.exp (-beta * H.epp) ≤ 1 := Real.exp_le_one_iff.2 (by nlinarith)
    have hle2 : Real.exp (-v14 * H.epp) ≤ 1 := Real.exp_le_one_iff.2 (by nlinarith)
    have h1 : Y0 ≤ Y0 + Yinf * (1 - Real.exp (-beta * H.epp)) +
        v13 * (1 - Real.exp (-v14 * H.epp)) + h * H.epp := by
      nlinarith [mul_nonneg hh hepp, mul_nonneg hYi (sub_nonneg.2 hle),
        mul_nonneg hv13 (sub_nonneg.2 hle2)]
    have : epsZ = 1 / 10 ^ 16 := rfl
    rw [this]
    exact lt_of_lt_of_le hY0 (mul_le_mul_of_nonneg_left h1 hs.le)
  have hy : 0 < s23 * Y0 := lt_trans hz hY0
  obtain ⟨o, g, e, tau, f, r⟩ := evaluate_step (q0 :: q1 :: q2 :: q3 :: K :: G :: h :: hk :: ty :: Y0 ::
    Yinf :: beta :: ist :: v13 :: v14 :: l) hfn prin ns H Fp Fc it first _
    (fetch_list q0 q1 q2 q3 K G h hk ty Y0 Yinf beta ist (v13 :: v14 :: l)) hK hG hy hk hhk rfl hF
    ll2 N hpr hpos hne
    (fun a => Y0 + Yinf * (1 - Real.exp (-beta * a)) + v13 * (1 - Real.exp (-v14 * a)) + h * a) _ (by
      intro e _ i1 j2 j3 hj hz
      refine radial_ok _ j2 hj hz i1 _ _ (s23 * Y0 + s23 * Yinf + s23 * v13 -
        s23 * Yinf * Real.exp (-beta * e) - s23 * v13 * Real.exp (-v14 * e) + s23 * h * e) ?_
        (by rw [hs2]; ring)
      simp only [yfunc, List.getElem?_cons_succ, List.getElem?_cons_zero, if_neg h1, if_neg h2,
        if_neg h3, if_neg h4, if_neg h5, if_pos hty]) (by
      intro i1 j2 j3 hj
      refine radial_ok0 _ j2 hj (2 / 3 * h + s23 * (beta * (s23 * Yinf * Real.exp (-beta * H.epp)) +
        v14 * (s23 * v13 * Real.exp (-v14 * H.epp)))) _ (s23 * Y0 + s23 * Yinf + s23 * v13 -
        s23 * Yinf * Real.exp (-beta * H.epp) - s23 * v13 * Real.exp (-v14 * H.epp) + s23 * h * H.epp)
        ?_ (by rw [hs2]; ring)
      simp only [yfunc, List.getElem?_cons_succ, List.getElem?_cons_zero, if_neg h1, if_neg h2,
        if_neg h3, if_neg h4, if_neg h5, if_pos hty]) hc hYe hit (flow_of _ it first hit hst) hyield
  exact ⟨o, g, e, tau, f, r⟩

/-- **C118** (hardening curve). The same for a tabulated hardening curve `hc` with slope `hc'`, if
the curve is not decreasing, lies below its tangents, and no linear modulus is given in addition. -/
theorem C118_curve (hc hc' : ℝ → ℝ) (hty : toInt ty = 5) (hK : 0 < K)
    (hG : 0 < G) (hhk : 0 ≤ hk) (hY0 : 0 < Y0)
    (prin : M3 → Option (V3 × M3)) (ns : Nat) (H : Hist) (Fp Fc : M3) (it : Nat)
    (hcv : ∀ a b, H.epp ≤ a → H.epp ≤ b → hc b ≤ hc a + hc' a * (b - a))
    (hsl : ∀ a, H.epp ≤ a → 0 ≤ hc' a) (hY : 1 / 10 ^ 16 < Real.sqrt (2 / 3) * hc H.epp)
    (first : Bool) (hF : Fp.det ≠ 0 ∧ Fc.det ≠ 0) (ll2 : V3) (N : M3)
    (hpr : prin (Fc * Fp⁻¹ * sym6 H.ecg * (Fc * Fp⁻¹).transpose) = some (ll2, N))
    (hpos : ∀ i, 0 < ll2 i) (hne : ∃ i, ll2 i ≠ 1) (hit : 0 < it)
    (hst : ¬ (first = true ∧ 1 < toInt ist ∧ (it : Int) ≤ toInt ist))
    (hyield : Real.sqrt (2 / 3) * hc H.epp <
      len (dev fun j => hencky K G (fun i => Real.log (ll2 i) / 2) j - 2 / 3 * hk * H.epl j)) :
    ∃ o g e tau f, evaluate (q0 :: q1 :: q2 :: q3 :: K :: G :: 0 :: hk :: ty :: Y0 :: Yinf :: beta ::
        ist :: l) (some (hc, hc')) prin ns H Fp Fc it first = .ok o ∧
      Step K G hk hc (fun i => Real.log (ll2 i) / 2) H.epl H.epp g e tau o.hist.epl o.hist.epp f ∧
      sym6 o.hist.ecg = tensor (fun a => Real.exp (2 * e a)) N ∧
      o.sig = handedOut ns ((1 / Fc.det) • tensor tau N) ∧
      0 ≤ f ∧ (o.ierr = 0 → f < 1 / 10 ^ 9 * (Real.sqrt (2 / 3) * Y0)) ∧
      (o.ierr = 0 ∨ o.ierr = it) := by
  have hs := s23_pos'
  have hs2 : Real.sqrt (2 / 3) = s23 := rfl
  have hss : s23 * s23 = 2 / 3 := Real.mul_self_sqrt (by norm_num)
  rw [hs2] at hY hyield ⊢
  have h1 : ¬ toInt ty = 1 := by rw [hty]; decide
  have h2 : ¬ toInt ty = 2 := by rw [hty]; decide
  have h3 : ¬ toInt ty = 3 := by rw [hty]; decide
  have h4 : ¬ toInt ty = 4 := by rw [hty]; decide
  have hcc : Concave (fun e => s23 * hc e) (fun e => 2 / 3 * 0 + 2 / 3 * hc' e) H.epp := by
    refine ⟨fun a b ha hb => ?_, fun a ha => ?_⟩
    · have e2 : (2 / 3 * 0 + 2 / 3 * hc' a) / s23 * (b - a) = s23 * (hc' a * (b - a)) := by
        rw [← hss]
        field_simp
        ring
      rw [e2]
      nlinarith [mul_le_mul_of_nonneg_left (hcv a b ha hb) hs.le]
    · have := hsl a ha
      simpa using this
  obtain ⟨o, g, e, tau, f, r⟩ := evaluate_step (q0 :: q1 :: q2 :: q3 :: K :: G :: 0 :: hk :: ty :: Y0 ::
    Yinf :: beta :: ist :: l) (some (hc, hc')) prin ns H Fp Fc it first _
    (fetch_list q0 q1 q2 q3 K G 0 hk ty Y0 Yinf beta ist l) hK hG (mul_pos hs hY0) hk hhk rfl hF
    ll2 N hpr hpos hne hc _ (by
      intro e _ i1 j2 j3 hj hz
      refine radial_ok _ j2 hj hz i1 _ _ (s23 * hc e) ?_ rfl
      simp only [yfunc, List.getElem?_cons_succ, List.getElem?_cons_zero, if_neg h1, if_neg h2,
        if_neg h3, if_neg h4, if_pos hty]) (by
      intro i1 j2 j3 hj
      refine radial_ok0 _ j2 hj (2 / 3 * 0 + 2 / 3 * hc' H.epp) _ (s23 * hc H.epp) ?_ rfl
      simp only [yfunc, List.getElem?_cons_succ, List.getElem?_cons_zero, if_neg h1, if_neg h2,
        if_neg h3, if_neg h4, if_pos hty]) hcc (by exact hY) hit (flow_of _ it first hit hst) hyield
  exact ⟨o, g, e, tau, f, r⟩

/-- The output of an elastic evaluation. -/
theorem elastic_output (hfn : Option ((ℝ → ℝ) × (ℝ → ℝ)))
    (prin : M3 → Option (V3 × M3)) (ns : Nat) (H : Hist) (Fp Fc : M3) (it : Nat)
    (first : Bool) (hF : Fp.det ≠ 0 ∧ Fc.det ≠ 0) (ll2 : V3) (N : M3)
    (hpr : prin (Fc * Fp⁻¹ * sym6 H.ecg * (Fc * Fp⁻¹).transpose) = some (ll2, N))
    (hpos : ∀ i, 0 < ll2 i) (xi : V3)
    (hxi : xi = fun j => hencky K G (fun i => Real.log (ll2 i) / 2) j - 2 / 3 * hk * H.epl j) (y : Yld)
    (hy : yfunc (q0 :: q1 :: q2 :: q3 :: K :: G :: h :: hk :: ty :: Y0 :: Yinf :: beta ::
        ist :: l) hfn false H.epp (xi 0 + xi 1 + xi 2) (len (dev xi) ^ 2 / 2)
        ((dev xi 0 ^ 3 + dev xi 1 ^ 3 + dev xi 2 ^ 3) / 3) = .ok y)
    (hel : (0 < it ∧ y.yield ≤ 0) ∨ (it = 0 ∧ toInt ist = 0) ∨
      (first = true ∧ 1 < toInt ist ∧ (it : Int) ≤ toInt ist) ∨
      (it = 0 ∧ y.yield ≤ -(1 / 10 ^ 8 * (Real.sqrt (2 / 3) * Y0)))) :
    evaluate (q0 :: q1 :: q2 :: q3 :: K :: G :: h :: hk :: ty :: Y0 :: Yinf :: beta ::
        ist :: l) hfn prin ns H Fp Fc it first = .ok (output ns ll2 N Fc.det
      { H with ecg := fun i => (Fc * Fp⁻¹ * sym6 H.ecg * (Fc * Fp⁻¹).transpose) (p1 i) (p2 i) }
      (hencky K G fun i => Real.log (ll2 i) / 2)
      (elasticTangent ⟨K, G, s23 * Y0, 2 / 3 * hk, toInt ist⟩) 0) := by
  have hm := fetch_list q0 q1 q2 q3 K G h hk ty Y0 Yinf beta ist l
  have heps : (fun i => Real.log (Real.sqrt (ll2 i))) = fun i => Real.log (ll2 i) / 2 := by
    funext i
    exact Real.log_sqrt (hpos i).le
  set m : Par := ⟨K, G, s23 * Y0, 2 / 3 * hk, toInt ist⟩ with hmd
  set eps : V3 := fun i => Real.log (ll2 i) / 2 with hepsd
  have hta : (trial m H eps).ta = dev xi := by
    funext i
    show 2 * G * (eps i - vsum eps * (1 / 3)) - 2 / 3 * hk * H.epl i +
      vsum (fun i => 2 / 3 * hk * H.epl i) * (1 / 3) = _
    simp only [hxi, dev, mean, hencky, vsum]
    ring
  have hI1 : (trial m H eps).I1 = xi 0 + xi 1 + xi 2 := by
    show 3 * (K * vsum eps - vsum (fun i => 2 / 3 * hk * H.epl i) * (1 / 3)) = _
    simp only [hxi, dev, mean, hencky, vsum]
    ring
  have hJ2 : (trial m H eps).J2 = len (dev xi) ^ 2 / 2 := by
    show ((trial m H eps).ta 0 * (trial m H eps).ta 0 + (trial m H eps).ta 1 * (trial m H eps).ta 1 +
      (trial m H eps).ta 2 * (trial m H eps).ta 2) * (1 / 2) = _
    rw [hta, len, Real.sq_sqrt (by positivity)]
    ring
  have hJ3 : (trial m H eps).J3 = (dev xi 0 ^ 3 + dev xi 1 ^ 3 + dev xi 2 ^ 3) / 3 := by
    show ((trial m H eps).ta 0 * (trial m H eps).ta 0 * (trial m H eps).ta 0 +
      (trial m H eps).ta 1 * (trial m H eps).ta 1 * (trial m H eps).ta 1 +
      (trial m H eps).ta 2 * (trial m H eps).ta 2 * (trial m H eps).ta 2) * (1 / 3) = _
    rw [hta]
    ring
  have htau : (trial m H eps).tau = hencky K G eps := by
    funext i
    show 2 * G * (eps i - vsum eps * (1 / 3)) + K * vsum eps = _
    simp only [hencky, dev, mean, vsum]
    ring
  have hno : ¬ (y.yield > -yieldTol m it ∧ flowAllowed m.istart it first = true) := by
    rintro ⟨h1, h2⟩
    rcases hel with ⟨e1, e2⟩ | ⟨e1, e2⟩ | e | ⟨e1, e2⟩
    · rw [yieldTol, if_neg (fun h => absurd h.1 e1.ne')] at h1
      linarith
    · have e3 : m.istart = 0 := e2
      rw [flowAllowed, e1, e3] at h2
      simp at h2
    · have e3 : first = true ∧ m.istart > 1 ∧ (it : Int) ≤ m.istart := e
      rw [flowAllowed, if_pos e3] at h2
      exact absurd h2 (by decide)
    · rw [yieldTol] at h1
      by_cases hi : m.istart = 0
      · rw [flowAllowed, e1, hi] at h2
        simp at h2
      · rw [if_pos ⟨e1, hi⟩] at h1
        have : (m.y0 : ℝ) = Real.sqrt (2 / 3) * Y0 := rfl
        rw [this] at h1
        linarith
  have ev := evaluate_elastic _ hfn prin ns H Fp Fc it first m hm hF ll2 N hpr hpos y
    (by rw [heps, hI1, hJ2, hJ3]; exact hy) hno
  rw [heps] at ev
  rw [htau] at ev
  exact ev

/-- **C118** (elastic). For every yield criterion: when the criterion is not exceeded in an
equilibrium iteration, is missed by the tolerance in the first iteration, or when flow is not allowed
(first iteration of a step with elastic start, or one of the elastic start iterations of the first
step), the stress is that of Hencky's law for the
trial strains, the elastic left Cauchy-Green tensor is carried along with the relative deformation,
and the plastic variables do not change. -/
theorem C118_elastic (hfn : Option ((ℝ → ℝ) × (ℝ → ℝ)))
    (prin : M3 → Option (V3 × M3)) (ns : Nat) (H : Hist) (Fp Fc : M3) (it : Nat)
    (first : Bool) (hF : Fp.det ≠ 0 ∧ Fc.det ≠ 0) (ll2 : V3) (N : M3)
    (hpr : prin (Fc * Fp⁻¹ * sym6 H.ecg * (Fc * Fp⁻¹).transpose) = some (ll2, N))
    (hpos : ∀ i, 0 < ll2 i) (xi : V3)
    (hxi : xi = fun j => hencky K G (fun i => Real.log (ll2 i) / 2) j - 2 / 3 * hk * H.epl j) (y : Yld)
    (hy : yfunc (q0 :: q1 :: q2 :: q3 :: K :: G :: h :: hk :: ty :: Y0 :: Yinf :: beta ::
        ist :: l) hfn false H.epp (xi 0 + xi 1 + xi 2) (len (dev xi) ^ 2 / 2)
        ((dev xi 0 ^ 3 + dev xi 1 ^ 3 + dev xi 2 ^ 3) / 3) = .ok y)
    (hel : (0 < it ∧ y.yield ≤ 0) ∨ (it = 0 ∧ toInt ist = 0) ∨
      (first = true ∧ 1 < toInt ist ∧ (it : Int) ≤ toInt ist) ∨
      (it = 0 ∧ y.yield ≤ -(1 / 10 ^ 8 * (Real.sqrt (2 / 3) * Y0)))) :
    ∃ o, evaluate (q0 :: q1 :: q2 :: q3 :: K :: G :: h :: hk :: ty :: Y0 :: Yinf :: beta ::
        ist :: l) hfn prin ns H Fp Fc it first = .ok o ∧
      o.sig = handedOut ns ((1 / Fc.det) •
        tensor (hencky K G fun i => Real.log (ll2 i) / 2) N) ∧
      sym6 o.hist.ecg = Fc * Fp⁻¹ * sym6 H.ecg * (Fc * Fp⁻¹).transpose ∧
      o.hist.epp = H.epp ∧ o.hist.epl = H.epl ∧ o.ierr = 0 := by
  have ev := elastic_output q0 q1 q2 q3 K G h hk ty Y0 Yinf beta ist l hfn prin ns H Fp Fc it first hF
    ll2 N hpr hpos xi hxi y hy hel
  refine ⟨_, ev, output_sig _ _ _ _ _ _ _ _, ?_, rfl, rfl, rfl⟩
  exact sym6_pairs _ fun i j => push_symm (Fc * Fp⁻¹) H.ecg i j

/-- **C118** (virgin points). An elastic evaluation of a point that has not been deformed before: the
stress is that of Hencky's law for the left Cauchy-Green tensor, and there are no plastic strains. -/
theorem C118_virgin (hfn : Option ((ℝ → ℝ) × (ℝ → ℝ)))
    (prin : M3 → Option (V3 × M3)) (ns : Nat) (Fc : M3) (it : Nat) (first : Bool) (hF : Fc.det ≠ 0)
    (ll2 : V3) (N : M3) (hpr : prin (Fc * Fc.transpose) = some (ll2, N)) (hpos : ∀ i, 0 < ll2 i) (t : V3)
    (ht : t = hencky K G fun i => Real.log (ll2 i) / 2) (y : Yld)
    (hy : yfunc (q0 :: q1 :: q2 :: q3 :: K :: G :: h :: hk :: ty :: Y0 :: Yinf :: beta ::
        ist :: l) hfn false 0 (t 0 + t 1 + t 2) (len (dev t) ^ 2 / 2)
        ((dev t 0 ^ 3 + dev t 1 ^ 3 + dev t 2 ^ 3) / 3) = .ok y)
    (hel : 0 < it ∧ y.yield ≤ 0) :
    ∃ o, evaluate (q0 :: q1 :: q2 :: q3 :: K :: G :: h :: hk :: ty :: Y0 :: Yinf :: beta ::
        ist :: l) hfn prin ns hist0 1 Fc it first = .ok o ∧
      o.sig = handedOut ns ((1 / Fc.det) • tensor t N) ∧ sym6 o.hist.ecg = Fc * Fc.transpose ∧
      o.hist.epp = 0 ∧ o.hist.epl = fun _ => 0 := by
  have e1 : sym6 hist0.ecg = 1 := by
    funext i j
    fin_cases i <;> fin_cases j <;> simp [sym6, hist0]
  have e2 : Fc * (1 : M3)⁻¹ * sym6 hist0.ecg * (Fc * (1 : M3)⁻¹).transpose = Fc * Fc.transpose := by
    rw [e1, inv_one]
    simp
  obtain ⟨o, h1, h2, h3, h4, h5, -⟩ := C118_elastic q0 q1 q2 q3 K G h hk ty Y0 Yinf beta ist l hfn prin
    ns hist0 1 Fc it first ⟨by simp, hF⟩ ll2 N (by rw [e2]; exact hpr) hpos t
    (by rw [ht]; funext j; simp [hist0]) y hy (Or.inl hel)
  rw [e2] at h3
  rw [← ht] at h2
  exact ⟨o, h1, h2, h3, h4, h5⟩

/-- The yield function of the von Mises criterion with linear hardening. -/
theorem linear_radial (hfn : Option ((ℝ → ℝ) × (ℝ → ℝ))) (hty : toInt ty = 1) (H : Hist) :
    Radial (yfunc (q0 :: q1 :: q2 :: q3 :: K :: G :: h :: hk :: ty :: Y0 :: Y0 :: beta :: ist :: l) hfn
      true) 0 (fun e => s23 * Y0 + s23 * h * e) (fun _ => s23 * (s23 * h)) H.epp ∧
    ∀ i1 j2 j3, 0 < j2 → ∃ y, yfunc (q0 :: q1 :: q2 :: q3 :: K :: G :: h :: hk :: ty :: Y0 :: Y0 ::
      beta :: ist :: l) hfn false H.epp i1 j2 j3 = .ok y ∧
      y.yield = Real.sqrt (2 * j2) + 0 * i1 - s23 * (Y0 + h * H.epp) := by
  have hss : s23 * s23 = 2 / 3 := Real.mul_self_sqrt (by norm_num)
  constructor
  · intro e _ i1 j2 j3 hj hz
    refine radial_ok _ j2 hj hz i1 _ _ (s23 * Y0 + (s23 * Y0 - s23 * Y0) * Real.exp (-beta * e) +
      s23 * h * e) ?_ (by ring)
    simp only [yfunc, List.getElem?_cons_succ, List.getElem?_cons_zero, hty, if_true]
    rw [show s23 * (s23 * h) = 2 / 3 * h - s23 * beta * ((s23 * Y0 - s23 * Y0) *
      Real.exp (-beta * e)) by linear_combination h * hss]
  · intro i1 j2 j3 hj
    obtain ⟨y, hy, hv⟩ := radial_ok0 (yfunc (q0 :: q1 :: q2 :: q3 :: K :: G :: h :: hk :: ty :: Y0 ::
      Y0 :: beta :: ist :: l) hfn false H.epp i1 j2 j3) j2 hj (2 / 3 * h - s23 * beta *
      ((s23 * Y0 - s23 * Y0) * Real.exp (-beta * H.epp))) (s23 * (Y0 + h * H.epp))
      (s23 * Y0 + (s23 * Y0 - s23 * Y0) * Real.exp (-beta * H.epp) + s23 * h * H.epp)
      (by simp only [yfunc, List.getElem?_cons_succ, List.getElem?_cons_zero, hty, if_true])
      (by ring)
    exact ⟨y, hy, by rw [hv]; ring⟩

/-- The yield function of the Drucker-Prager criterion. -/
theorem drucker_radial (hfn : Option ((ℝ → ℝ) × (ℝ → ℝ))) (hty : toInt ty = 2) (H : Hist) (c : ℝ)
    (hc : c = s23 * Yinf / 3) :
    Radial (yfunc (q0 :: q1 :: q2 :: q3 :: K :: G :: h :: hk :: ty :: Y0 :: Yinf :: beta :: ist :: l)
      hfn true) c (fun e => s23 * Y0 + s23 * h * e) (fun _ => s23 * (s23 * h)) H.epp ∧
    ∀ i1 j2 j3, 0 < j2 → ∃ y, yfunc (q0 :: q1 :: q2 :: q3 :: K :: G :: h :: hk :: ty :: Y0 :: Yinf ::
      beta :: ist :: l) hfn false H.epp i1 j2 j3 = .ok y ∧
      y.yield = Real.sqrt (2 * j2) + c * i1 - s23 * (Y0 + h * H.epp) := by
  have hss : s23 * s23 = 2 / 3 := Real.mul_self_sqrt (by norm_num)
  have h1 : ¬ toInt ty = 1 := by rw [hty]; decide
  constructor
  · intro e _ i1 j2 j3 hj hz
    simp only [yfunc, List.getElem?_cons_succ, List.getElem?_cons_zero, if_neg h1, if_pos hty,
      if_true, if_pos hj, misesD, true_and, if_pos hz, ne_eq]
    rw [hc, ← mul_assoc s23 s23 h, hss, show 1 / 3 * (s23 * Yinf) = s23 * Yinf / 3 by ring]
  · intro i1 j2 j3 hj
    refine ⟨⟨0, 0, 0, 0, 0, 0, 0, 0, 0, 2 / 3 * h, s23 * Y0 + s23 * h * H.epp,
      Real.sqrt (2 * j2) + 1 / 3 * (s23 * Yinf) * i1 - (s23 * Y0 + s23 * h * H.epp)⟩, ?_, ?_⟩
    · simp only [yfunc, List.getElem?_cons_succ, List.getElem?_cons_zero, if_neg h1, if_pos hty,
        if_pos hj, Bool.false_eq_true, if_false]
    · show Real.sqrt (2 * j2) + 1 / 3 * (s23 * Yinf) * i1 - (s23 * Y0 + s23 * h * H.epp) = _
      rw [hc]
      ring

/-- **C118** (linear hardening). For von Mises' criterion with linear isotropic and kinematic
hardening, the plastic multiplier is the closed form radial return, and the final stress is exactly
on the yield surface. This holds in every iteration that allows flow. -/
theorem C118_linear (hfn : Option ((ℝ → ℝ) × (ℝ → ℝ))) (hty : toInt ty = 1) (hK : 0 < K) (hG : 0 < G)
    (hh : 0 ≤ h) (hhk : 0 ≤ hk) (hY0 : 1 / 10 ^ 16 < Real.sqrt (2 / 3) * Y0)
    (prin : M3 → Option (V3 × M3)) (ns : Nat) (H : Hist) (hepp : 0 ≤ H.epp) (Fp Fc : M3) (it : Nat)
    (first : Bool) (hF : Fp.det ≠ 0 ∧ Fc.det ≠ 0) (ll2 : V3) (N : M3)
    (hpr : prin (Fc * Fp⁻¹ * sym6 H.ecg * (Fc * Fp⁻¹).transpose) = some (ll2, N))
    (hpos : ∀ i, 0 < ll2 i) (hne : ∃ i, ll2 i ≠ 1) (hit : ¬ (it = 0 ∧ toInt ist = 0))
    (hst : ¬ (first = true ∧ 1 < toInt ist ∧ (it : Int) ≤ toInt ist)) (xi : V3)
    (hxi : xi = fun j => hencky K G (fun i => Real.log (ll2 i) / 2) j - 2 / 3 * hk * H.epl j)
    (hyield : Real.sqrt (2 / 3) * (Y0 + h * H.epp) < len (dev xi)) (g : ℝ)
    (hg : g = (len (dev xi) - Real.sqrt (2 / 3) * (Y0 + h * H.epp)) / (2 * G + 2 / 3 * (h + hk))) :
    ∃ o e tau, evaluate (q0 :: q1 :: q2 :: q3 :: K :: G :: h :: hk :: ty :: Y0 :: Y0 :: beta ::
        ist :: l) hfn prin ns H Fp Fc it first = .ok o ∧
      Step K G hk (fun a => Y0 + h * a) (fun i => Real.log (ll2 i) / 2) H.epl H.epp g e tau o.hist.epl
        o.hist.epp 0 ∧
      sym6 o.hist.ecg = tensor (fun a => Real.exp (2 * e a)) N ∧
      o.sig = handedOut ns ((1 / Fc.det) • tensor tau N) ∧ o.ierr = 0 := by
  have hs := s23_pos'
  have hs2 : Real.sqrt (2 / 3) = s23 := rfl
  have hss : s23 * s23 = 2 / 3 := Real.mul_self_sqrt (by norm_num)
  rw [hs2] at hY0 hyield hg
  have hz : (0 : ℝ) < 1 / 10 ^ 16 := by positivity
  have hfl : flowAllowed (toInt ist) it first = true := by
    unfold flowAllowed
    rw [if_neg hst]
    have := not_and_or.1 hit
    simpa using this
  have hB : 0 < 2 * G + 2 / 3 * (h + hk) := by positivity
  have hg0 : 0 ≤ g := by rw [hg]; exact div_nonneg (by linarith) hB.le
  have hgB : g * (2 * G + 2 / 3 * (h + hk)) = len (dev xi) - s23 * (Y0 + h * H.epp) := by
    rw [hg]; exact div_mul_cancel₀ _ hB.ne'
  obtain ⟨o, nu, e, xi', h1, h2, h3, h4, h5, h6, h7, h8, h9, h10, h11, h12, h13, h14, -⟩ :=
    evaluate_linear (q0 :: q1 :: q2 :: q3 :: K :: G :: h :: hk :: ty :: Y0 :: Y0 :: beta ::
    ist :: l) hfn prin ns H Fp Fc it first _
    (fetch_list q0 q1 q2 q3 K G h hk ty Y0 Y0 beta ist l) hK hG (lt_trans hz hY0) hk hhk rfl hF
    ll2 N hpr hpos hne 0 Y0 h hh
    (linear_radial q0 q1 q2 q3 K G h hk ty Y0 beta ist l hfn hty H).1
    (linear_radial q0 q1 q2 q3 K G h hk ty Y0 beta ist l hfn hty H).2 hfl xi hxi g (by
      rw [hg]
      congr 1 <;> ring) (by linarith) (by
      have : 0 ≤ h * g := by positivity
      have : 0 ≤ s23 * (h * H.epp) := by positivity
      show (1 : ℝ) / 10 ^ 16 < len (dev xi) - (2 * G + 2 / 3 * hk) * g
      nlinarith)
  refine ⟨o, e, _, h1, ⟨hg0, rfl, ⟨nu, h3, h4, fun i => ?_, fun i => ?_, fun i => ?_⟩, h10, ?_⟩, h8,
    h11, h14⟩
  · rw [h6]; simp
  · rw [h9]; simp
  · rw [h7] at h12
    exact h12 i
  · rw [h7] at h13
    rw [hs2]
    have : len (dev fun i => hencky K G e i - 2 / 3 * hk * o.hist.epl i) = s23 * (Y0 + h * o.hist.epp) := by
      linear_combination h13
    show 0 = len (dev fun i => hencky K G e i - 2 / 3 * hk * o.hist.epl i) - _
    rw [this]
    ring

/-- **C118** (Drucker-Prager). For the criterion with a pressure term and linear hardening, the return
to the cone has the closed form below, the final stress is exactly on the yield surface, and the flow
is associated: the plastic strain increment has the volumetric part of the pressure term. The
condition on the side of the cone excludes returns to or beyond its tip. -/
theorem C118_drucker (hfn : Option ((ℝ → ℝ) × (ℝ → ℝ))) (hty : toInt ty = 2) (hK : 0 < K) (hG : 0 < G)
    (hh : 0 ≤ h) (hhk : 0 ≤ hk) (hY0 : 0 < Y0)
    (prin : M3 → Option (V3 × M3)) (ns : Nat) (H : Hist) (Fp Fc : M3) (it : Nat)
    (first : Bool) (hF : Fp.det ≠ 0 ∧ Fc.det ≠ 0) (ll2 : V3) (N : M3)
    (hpr : prin (Fc * Fp⁻¹ * sym6 H.ecg * (Fc * Fp⁻¹).transpose) = some (ll2, N))
    (hpos : ∀ i, 0 < ll2 i) (hne : ∃ i, ll2 i ≠ 1) (hit : ¬ (it = 0 ∧ toInt ist = 0))
    (hst : ¬ (first = true ∧ 1 < toInt ist ∧ (it : Int) ≤ toInt ist)) (xi : V3)
    (hxi : xi = fun j => hencky K G (fun i => Real.log (ll2 i) / 2) j - 2 / 3 * hk * H.epl j)
    (c : ℝ) (hc : c = Real.sqrt (2 / 3) * Yinf / 3)
    (hyield : Real.sqrt (2 / 3) * (Y0 + h * H.epp) < len (dev xi) + c * (xi 0 + xi 1 + xi 2)) (g : ℝ)
    (hg : g = (len (dev xi) + c * (xi 0 + xi 1 + xi 2) - Real.sqrt (2 / 3) * (Y0 + h * H.epp)) /
      (2 * G + 2 / 3 * hk + c ^ 2 * (9 * K + 2 * hk) + 2 / 3 * h))
    (hside : 1 / 10 ^ 16 < len (dev xi) - (2 * G + 2 / 3 * hk) * g) :
    ∃ o nu e xi', evaluate (q0 :: q1 :: q2 :: q3 :: K :: G :: h :: hk :: ty :: Y0 :: Yinf :: beta ::
        ist :: l) hfn prin ns H Fp Fc it first = .ok o ∧ 0 < g ∧
      len nu = 1 ∧ mean nu = 0 ∧ (∀ i, dev xi i = len (dev xi) * nu i) ∧
      e = (fun i => Real.log (ll2 i) / 2 - g * (nu i + c)) ∧
      xi' = (fun i => hencky K G e i - 2 / 3 * hk * o.hist.epl i) ∧
      sym6 o.hist.ecg = tensor (fun a => Real.exp (2 * e a)) N ∧
      (∀ i, o.hist.epl i = H.epl i + g * (nu i + c)) ∧ o.hist.epp = H.epp + Real.sqrt (2 / 3) * g ∧
      o.sig = handedOut ns ((1 / Fc.det) • tensor (hencky K G e) N) ∧
      (∀ i, dev xi' i = len (dev xi') * nu i) ∧
      len (dev xi') + c * (xi' 0 + xi' 1 + xi' 2) = Real.sqrt (2 / 3) * (Y0 + h * o.hist.epp) ∧
      o.ierr = 0 := by
  have hs := s23_pos'
  have hs2 : Real.sqrt (2 / 3) = s23 := rfl
  have hss : s23 * s23 = 2 / 3 := Real.mul_self_sqrt (by norm_num)
  rw [hs2] at hc hyield hg
  have h1 : ¬ toInt ty = 1 := by rw [hty]; decide
  have hfl : flowAllowed (toInt ist) it first = true := by
    unfold flowAllowed
    rw [if_neg hst]
    have := not_and_or.1 hit
    simpa using this
  obtain ⟨o, nu, e, xi', k1, k2, k3, k4, k5, k6, k7, k8, k9, k10, k11, k12, k13, k14, -⟩ :=
    evaluate_linear (q0 :: q1 :: q2 :: q3 :: K :: G :: h :: hk :: ty :: Y0 :: Yinf :: beta ::
    ist :: l) hfn prin ns H Fp Fc it first _
    (fetch_list q0 q1 q2 q3 K G h hk ty Y0 Yinf beta ist l) hK hG (mul_pos hs hY0) hk hhk rfl hF
    ll2 N hpr hpos hne c Y0 h hh
    (drucker_radial q0 q1 q2 q3 K G h hk ty Y0 Yinf beta ist l hfn hty H c hc).1
    (drucker_radial q0 q1 q2 q3 K G h hk ty Y0 Yinf beta ist l hfn hty H c hc).2 hfl xi hxi g hg
    hyield hside
  exact ⟨o, nu, e, xi', k1, k2, k3, k4, k5, k6, k7, k8, k9, k10, k11, k12, k13, k14⟩

end parameters

end Verif.Plastic

/-
Properties C20 (moduli), C21 (plastic history) and C23 (energy path integral).
-/
import Verif.Model.Plastic
import Mathlib.Tactic.FieldSimp
import Mathlib.Tactic.Ring
import Mathlib.Tactic.Linarith
import Mathlib.Tactic.NormNum
import Mathlib.Tactic.FinCases

set_option linter.unusedSectionVars false
set_option linter.unusedSimpArgs false
set_option linter.unusedVariables false

namespace Verif.Plastic

/-! ### C20 -/

section C20
variable {K : Type*} [Field K] [LinearOrder K] [IsStrictOrderedRing K]

/-- C20: Young's modulus and Poisson's ratio as input give the textbook bulk and shear moduli. -/
theorem C20_young (E nu : K) (h1 : -1 < nu) (h2 : nu < 1 / 2) :
    (moduli E nu).E = E ∧ (moduli E nu).nu = nu ∧
    E = 3 * (moduli E nu).bulk * (1 - 2 * nu) ∧ E = 2 * (moduli E nu).shear * (1 + nu) := by
  have h3 : ¬ nu > 1 / 2 := not_lt.2 h2.le
  have h4 : (3 - 6 * nu) ≠ 0 := by
    have : 0 < 3 - 6 * nu := by linarith
    exact this.ne'
  have h5 : (2 + 2 * nu) ≠ 0 := by
    have : 0 < 2 + 2 * nu := by linarith
    exact this.ne'
  unfold moduli
  rw [if_neg h3, if_pos h2]
  refine ⟨rfl, rfl, ?_, ?_⟩
  · simp only []
    rw [show 3 * (E / (3 - 6 * nu)) * (1 - 2 * nu) = E / (3 - 6 * nu) * (3 - 6 * nu) by ring,
      div_mul_cancel₀ _ h4]
  · simp only []
    rw [show 2 * (E / (2 + 2 * nu)) * (1 + nu) = E / (2 + 2 * nu) * (2 + 2 * nu) by ring,
      div_mul_cancel₀ _ h5]

/-- C20: bulk and shear moduli as input (recognised by a value above 1/2) are kept, and give the
textbook Young's modulus and Poisson's ratio. -/
theorem C20_bulk (k g : K) (hk : 0 < k) (hg : 1 / 2 < g) :
    (moduli k g).bulk = k ∧ (moduli k g).shear = g ∧
    (moduli k g).E = 3 * k * (1 - 2 * (moduli k g).nu) ∧
    (moduli k g).E = 2 * g * (1 + (moduli k g).nu) ∧
    -1 < (moduli k g).nu ∧ (moduli k g).nu < 1 / 2 := by
  have hg' : 0 < g := by linarith
  have h3 : 0 < 3 * k + g := by linarith
  unfold moduli
  rw [if_pos hg]
  refine ⟨rfl, rfl, ?_, ?_, ?_, ?_⟩
  · simp only []; field_simp; ring
  · simp only []; field_simp; ring
  · simp only []; rw [lt_div_iff₀ h3]; linarith
  · simp only []; rw [div_lt_iff₀ h3]; linarith

/-- C20: the two input forms of the same material give the same four moduli, provided the shear
modulus is above 1/2. Missing: smaller shear moduli (`C20_shear_violated`) and the incompressible
case (`C20_incompressible_violated`). -/
theorem C20_forms_partial (E nu : K) (hE : 0 < E) (h1 : -1 < nu) (h2 : nu < 1 / 2)
    (hg : 1 / 2 < (moduli E nu).shear) :
    moduli (moduli E nu).bulk (moduli E nu).shear = moduli E nu := by
  obtain ⟨e1, e2, e3, e4⟩ := C20_young E nu h1 h2
  set m := moduli E nu with hm
  have hb : 0 < m.bulk := by
    by_contra h
    have : 3 * m.bulk * (1 - 2 * nu) ≤ 0 := by
      apply mul_nonpos_of_nonpos_of_nonneg <;> linarith
    linarith
  have hs : 0 < 3 * m.bulk + m.shear := by linarith
  have key : m.nu * (3 * m.bulk + m.shear) = 3 / 2 * m.bulk - m.shear := by
    rw [e2]; linarith
  have key2 : m.E * (3 * m.bulk + m.shear) = 9 * m.bulk * m.shear := by
    rw [e1]
    calc E * (3 * m.bulk + m.shear)
        = E * (3 * m.bulk) + E * m.shear := by ring
      _ = (2 * m.shear * (1 + nu)) * (3 * m.bulk) + (3 * m.bulk * (1 - 2 * nu)) * m.shear := by
          rw [← e4, ← e3]
      _ = 9 * m.bulk * m.shear := by ring
  have : moduli m.bulk m.shear = ⟨9 * m.bulk * m.shear / (3 * m.bulk + m.shear),
      (3 / 2 * m.bulk - m.shear) / (3 * m.bulk + m.shear), m.bulk, m.shear⟩ := by
    unfold moduli; rw [if_pos hg]
  rw [this, ← key2, ← key, mul_div_assoc, mul_div_assoc, div_self hs.ne', mul_one, mul_one]

example : (-1 : ℚ) < 1 / 4 ∧ (1 / 4 : ℚ) < 1 / 2 ∧ 1 / 2 < (moduli (200 : ℚ) (1 / 4)).shear := by
  norm_num [moduli]

/-- Young's modulus 1 and Poisson's ratio 0 is the material with bulk modulus 1/3 and shear
modulus 1/2, but that input form gives another shear modulus. -/
theorem C20_shear_violated :
    (moduli (1 : ℚ) 0).bulk = 1 / 3 ∧ (moduli (1 : ℚ) 0).shear = 1 / 2 ∧
    (moduli (1 / 3 : ℚ) (1 / 2)).shear = 1 / 9 := by
  norm_num [moduli]

/-- For Poisson's ratio 1/2 the bulk modulus becomes zero instead of infinite: the relation
`9KG/(3K+G) = E` fails for every `E ≠ 0`. -/
theorem C20_incompressible_violated (E : K) (hE : E ≠ 0) :
    let m := moduli E (1 / 2)
    m.bulk = 0 ∧ 9 * m.bulk * m.shear / (3 * m.bulk + m.shear) ≠ E := by
  have e : moduli E (1 / 2) = ⟨E, 1 / 2, 0, E / 3⟩ := by
    unfold moduli; rw [if_neg (lt_irrefl _), if_neg (lt_irrefl _)]
  simp only [e]
  refine ⟨trivial, ?_⟩
  simp [hE.symm]

/-- C20: the neo-Hookean material of version 2 has the same moduli as the plastic material, from
both input forms. -/
theorem C20_neohooke (mver : Nat) (hv : mver ≠ 1) (a b : K) (hb : b ≠ 1 / 2) :
    (lame mver (-1) a b).E = (moduli a b).E ∧ (lame mver (-1) a b).nu = (moduli a b).nu ∧
    (lame mver (-1) a b).bulk = (moduli a b).bulk ∧
    (lame mver (-1) a b).shear = (moduli a b).shear := by
  have h0 : ¬ ((-1 : K) > 0) := by norm_num
  unfold lame moduli
  by_cases h : b > 1 / 2
  · rw [if_pos h, if_pos h, if_neg h0]; exact ⟨rfl, rfl, rfl, rfl⟩
  · have h' : b < 1 / 2 := lt_of_le_of_ne (not_lt.1 h) hb
    rw [if_neg h, if_neg h, if_pos h', if_neg h0]
    simp only [if_neg (not_le.2 h'), hv, false_and, if_false]
    refine ⟨trivial, trivial, trivial, ?_⟩
    rw [show (2 : K) + 2 * b = 2 * (1 + b) by ring]
    by_cases hz : 1 + b = 0
    · simp [hz]
    · field_simp

/-- C20: the neo-Hookean material of version 1 uses the first Lamé parameter
`E ν / ((1+ν)(1-2ν))` in the place of the bulk modulus, when Young's modulus and Poisson's ratio
are given. -/
theorem C20_neohooke_lambda (E nu : K) (h1 : -1 < nu) (h2 : nu < 1 / 2) :
    (lame 1 (-1) E nu).bulk = E * nu / ((1 + nu) * (1 - 2 * nu)) ∧
    (lame 1 (-1) E nu).shear = E / (2 * (1 + nu)) := by
  have h0 : ¬ ((-1 : K) > 0) := by norm_num
  have h3 : ¬ nu > 1 / 2 := not_lt.2 h2.le
  have h4 : (1 + nu) ≠ 0 := by have : 0 < 1 + nu := by linarith
                               exact this.ne'
  have h5 : (1 - 2 * nu) ≠ 0 := by have : 0 < 1 - 2 * nu := by linarith
                                   exact this.ne'
  have h6 : (3 - 6 * nu) ≠ 0 := by have : 0 < 3 - 6 * nu := by linarith
                                   exact this.ne'
  unfold lame
  rw [if_neg h3, if_neg h0]
  simp only [if_neg (not_le.2 h2), h2, and_self, if_true]
  constructor
  · rw [show (3 : K) - 6 * nu = 3 * (1 - 2 * nu) by ring]
    field_simp
    ring
  · field_simp

/-- With version 1 the two input forms of the same material disagree: bulk modulus 2 and shear
modulus 1 is the material with Young's modulus 18/7 and Poisson's ratio 2/7, whose first Lamé
parameter is 4/3, but the parameter used is 2. -/
theorem C20_neohooke_violated :
    (lame 1 (-1) (2 : ℚ) 1).E = 18 / 7 ∧ (lame 1 (-1) (2 : ℚ) 1).nu = 2 / 7 ∧
    (lame 1 (-1) (2 : ℚ) 1).bulk = 2 ∧
    (lame 1 (-1) (18 / 7 : ℚ) (2 / 7)).bulk = 4 / 3 ∧
    (lame 1 (-1) (18 / 7 : ℚ) (2 / 7)).shear = 1 := by
  norm_num [lame]

/-- C20: where the constructor puts the parameters: the first two become Young's modulus and
Poisson's ratio, the next two stay, bulk and shear modulus follow, and the remaining ones are moved
by two places; at least 13 parameters are present. -/
theorem C20_params (p : List K) :
    let q := p ++ List.replicate (11 - p.length) 0
    (params p).length = max p.length 11 + 2 ∧
    ∃ p0 p1, q[0]? = some p0 ∧ q[1]? = some p1 ∧
      (params p)[0]? = some (moduli p0 p1).E ∧ (params p)[1]? = some (moduli p0 p1).nu ∧
      (params p)[2]? = q[2]? ∧ (params p)[3]? = q[3]? ∧
      (params p)[4]? = some (moduli p0 p1).bulk ∧ (params p)[5]? = some (moduli p0 p1).shear ∧
      ∀ k, 4 ≤ k → (params p)[k + 2]? = q[k]? := by
  intro q
  have hq : q.length = max p.length 11 := by simp only [q, List.length_append, List.length_replicate]; omega
  obtain ⟨p0, p1, p2, p3, l, hl⟩ : ∃ p0 p1 p2 p3 l, q = p0 :: p1 :: p2 :: p3 :: l := by
    have : 11 ≤ q.length := by omega
    match hq' : q with
    | [] => simp [hq'] at this
    | [_] => simp [hq'] at this
    | [_, _] => simp [hq'] at this
    | [_, _, _] => simp [hq'] at this
    | p0 :: p1 :: p2 :: p3 :: l => exact ⟨p0, p1, p2, p3, l, rfl⟩
  have e : params p = (moduli p0 p1).E :: (moduli p0 p1).nu :: p2 :: p3 ::
      (moduli p0 p1).bulk :: (moduli p0 p1).shear :: l := by
    unfold params
    simp only []
    have : p ++ List.replicate (11 - p.length) 0 = p0 :: p1 :: p2 :: p3 :: l := hl
    rw [this]
  rw [e, hl]
  rw [hl] at hq
  refine ⟨by simp only [List.length_cons] at hq ⊢; omega, p0, p1, rfl, rfl, rfl, rfl, rfl, rfl, rfl, rfl, ?_⟩
  intro k hk
  obtain ⟨m, rfl⟩ : ∃ m, k = m + 4 := ⟨k - 4, by omega⟩
  simp

end C20

/-! ### C21 -/

section C21
variable {H T : Type*}

theorem pointEval_hp (law : Law H T) (F : T) (it : Nat) (first : Bool) (p : Point H T) :
    (pointEval law F it first p).2.hp = p.hp ∧ (pointEval law F it first p).2.fp = p.fp := by
  unfold pointEval
  rcases law p.hp p.fp F it first with ⟨h, d⟩ | h <;> exact ⟨rfl, rfl⟩

theorem iteration_hp (law : Law H T) (F : T) (it : Nat) (first : Bool) (p : Point H T)
    (h : first = true ∨ 0 < it) :
    (iteration law first it F p).hp = p.hp ∧ (iteration law first it F p).fp = p.fp := by
  have h1 : ¬ (it = 0 ∧ first = false) := by
    rintro ⟨a, b⟩; rcases h with h | h
    · rw [b] at h; simp at h
    · omega
  have h2 : (!first && it == 0) = false := by
    rcases h with h | h
    · simp [h]
    · have : it ≠ 0 := by omega
      simp [this]
  unfold iteration itgEval
  rw [if_neg h1]
  obtain ⟨a, b⟩ := pointEval_hp law F it first (initPoint it first p)
  rw [a, b]
  unfold initPoint updateState
  rw [h2]
  split_ifs <;> simp_all

/-- C21: the iterations of a load step do not change the history the step started from, nor the
deformation gradient it refers to, whatever happens in them (divergence, errors). The iterations of
the first step never do; in later steps this concerns the iterations after the first one, which
commits the previous step. -/
theorem C21_iterations (law : Law H T) (first : Bool) (it : Nat) (l : List T) (p : Point H T)
    (h : first = true ∨ 0 < it) :
    (attempt law first it l p).hp = p.hp ∧ (attempt law first it l p).fp = p.fp := by
  induction l generalizing it p with
  | nil => exact ⟨rfl, rfl⟩
  | cons F l ih =>
    obtain ⟨a, b⟩ := ih (it + 1) (iteration law first it F p) (Or.inr (by omega))
    obtain ⟨c, d⟩ := iteration_hp law F it first p h
    exact ⟨a.trans c, b.trans d⟩

/-- The last iteration of an attempt determines the current history: it is computed from the
history and deformation gradient at the start of the step. -/
theorem attempt_last (law : Law H T) (first : Bool) (it : Nat) (l : List T) (F : T)
    (p : Point H T) (h : first = true ∨ 0 < it) (hn : H) (d : Bool)
    (hl : law p.hp p.fp F (it + l.length) first = .inl (hn, d)) :
    (attempt law first it (l ++ [F]) p).hc = hn ∧ (attempt law first it (l ++ [F]) p).upd ≠ .no := by
  induction l generalizing it p with
  | nil =>
    have h1 : ¬ (it = 0 ∧ first = false) := by
      rintro ⟨a, b⟩; rcases h with h | h
      · rw [b] at h; simp at h
      · omega
    simp only [List.nil_append, attempt, iteration, itgEval, if_neg h1]
    have hh : (initPoint it first p).hp = p.hp ∧ (initPoint it first p).fp = p.fp := by
      have h2 : (!first && it == 0) = false := by
        rcases h with h | h
        · simp [h]
        · have : it ≠ 0 := by omega
          simp [this]
      unfold initPoint updateState
      rw [h2]
      split_ifs <;> simp_all
    unfold pointEval
    simp only [List.length_nil, Nat.add_zero] at hl
    rw [hh.1, hh.2, hl]
    refine ⟨rfl, ?_⟩
    simp only []
    split_ifs <;> simp
  | cons G l ih =>
    simp only [List.cons_append, attempt]
    obtain ⟨c, d'⟩ := iteration_hp law G it first p h
    apply ih (it + 1) _ (Or.inr (by omega))
    rw [c, d']
    rw [List.length_cons] at hl
    rw [show it + 1 + l.length = it + (l.length + 1) by omega]
    exact hl

/-- Specification of the history of a point over converged load steps after the first. Each step is
given by the deformation gradients of its iterations, the last one being the converged one: the
history changes once per step, by the constitutive law evaluated for the converged deformation
gradient, relative to the one the step started from. -/
inductive Steps (law : Law H T) : H → List (List T) → H → Prop
  | nil (h : H) : Steps law h [] h
  | cons (h h1 h' : H) (F0 : T) (l : List T) (r : List (List T)) (d : Bool)
      (hl : law h F0 ((F0 :: l).getLast (by simp)) l.length false = .inl (h1, d))
      (hr : Steps law h1 r h') : Steps law h ((F0 :: l) :: r) h'

/-- One converged step after the first one. -/
theorem attempt_next (law : Law H T) (p : Point H T) (F0 : T) (l : List T) (hu : p.upd ≠ .no)
    (h1 : H) (d : Bool)
    (hl : law p.hc F0 ((F0 :: l).getLast (by simp)) l.length false = .inl (h1, d)) :
    (attempt law false 0 (F0 :: l) p).hc = h1 ∧ (attempt law false 0 (F0 :: l) p).upd ≠ .no ∧
    (attempt law false 0 (F0 :: l) p).hp = p.hc ∧ (attempt law false 0 (F0 :: l) p).fp = F0 := by
  have e0 : initPoint 0 false p = { p with upd := .no, hp := p.hc } := by
    unfold initPoint updateState; rw [if_neg hu]; rfl
  have e1 : (iteration law false 0 F0 p).hp = p.hc ∧ (iteration law false 0 F0 p).fp = F0 := by
    unfold iteration itgEval
    rw [if_pos ⟨rfl, rfl⟩, e0]
    obtain ⟨a, b⟩ := pointEval_hp law F0 0 false
      { ({ p with upd := .no, hp := p.hc } : Point H T) with fp := F0 }
    exact ⟨a, b⟩
  have e2 : attempt law false 0 (F0 :: l) p = attempt law false 1 l (iteration law false 0 F0 p) := rfl
  obtain ⟨a, b⟩ := C21_iterations law false 1 l (iteration law false 0 F0 p) (Or.inr (by omega))
  rw [e2]
  refine ⟨?_, ?_, a.trans e1.1, b.trans e1.2⟩
  · rcases List.eq_nil_or_concat l with rfl | ⟨l', F, rfl⟩
    · simp only [attempt]
      unfold iteration itgEval
      rw [if_pos ⟨rfl, rfl⟩, e0]
      unfold pointEval
      simp only [List.getLast_singleton, List.length_nil] at hl
      simp only [hl]
    · rw [List.concat_eq_append] at hl ⊢
      have hlast : (F0 :: (l' ++ [F])).getLast (by simp) = F := by
        rw [List.getLast_cons (by simp), List.getLast_append_singleton]
      rw [hlast, List.length_append, List.length_singleton] at hl
      refine (attempt_last law false 1 l' F _ (Or.inr (by omega)) h1 d ?_).1
      rw [e1.1, e1.2, show 1 + l'.length = l'.length + 1 by omega]
      exact hl
  · rcases List.eq_nil_or_concat l with rfl | ⟨l', F, rfl⟩
    · simp only [attempt]
      unfold iteration itgEval
      rw [if_pos ⟨rfl, rfl⟩, e0]
      unfold pointEval
      simp only [List.getLast_singleton, List.length_nil] at hl
      simp only [hl]
      split_ifs <;> simp
    · rw [List.concat_eq_append] at hl ⊢
      have hlast : (F0 :: (l' ++ [F])).getLast (by simp) = F := by
        rw [List.getLast_cons (by simp), List.getLast_append_singleton]
      rw [hlast, List.length_append, List.length_singleton] at hl
      refine (attempt_last law false 1 l' F _ (Or.inr (by omega)) h1 d ?_).2
      rw [e1.1, e1.2, show 1 + l'.length = l'.length + 1 by omega]
      exact hl

/-- C21: any number of failed attempts in the first load step, its converged attempt, and any
number of converged steps after it: the history at the end is the one of the converged states
only. Missing: failed attempts after the first load step, see `C21_restart_violated`. -/
theorem C21_history_partial (law : Law H T) (h0 hz : H) (one : T) (failed : List (List T))
    (l : List T) (F : T) (h1 : H) (d : Bool) (steps : List (List T)) (h' : H)
    (hl : law h0 one F l.length true = .inl (h1, d)) (hs : Steps law h1 steps h') :
    (simulate law (failed.map (fun l => (true, l)) ++ (true, l ++ [F]) ::
      steps.map (fun l => (false, l))) (newPoint h0 hz one)).hc = h' := by
  have hA : ∀ (failed : List (List T)) (p : Point H T) (r : List (Bool × List T)),
      ∃ q, simulate law (failed.map (fun l => (true, l)) ++ r) p = simulate law r q ∧
        q.hp = p.hp ∧ q.fp = p.fp := by
    intro failed
    induction failed with
    | nil => intro p r; exact ⟨p, rfl, rfl, rfl⟩
    | cons a l ih =>
      intro p r
      obtain ⟨q, e, f, g⟩ := ih (attempt law true 0 a p) r
      obtain ⟨f', g'⟩ := C21_iterations law true 0 a p (Or.inl rfl)
      exact ⟨q, e, f.trans f', g.trans g'⟩
  obtain ⟨q, e, f, g⟩ := hA failed (newPoint h0 hz one) ((true, l ++ [F]) ::
      steps.map (fun l => (false, l)))
  rw [e]
  simp only [simulate]
  have hq : law q.hp q.fp F (0 + l.length) true = .inl (h1, d) := by
    rw [f, g, Nat.zero_add]; exact hl
  obtain ⟨a, b⟩ := attempt_last law true 0 l F q (Or.inl rfl) h1 d hq
  generalize attempt law true 0 (l ++ [F]) q = p at a b
  clear e f g hq hl
  subst a
  generalize hc : p.hc = hcp at hs
  induction hs generalizing p with
  | nil h => exact hc
  | cons h h2 h' F0 l r d hl hr ih =>
    subst hc
    obtain ⟨a, b, _, _⟩ := attempt_next law p F0 l b h2 d hl
    exact ih _ b a

/-- C21: in the elastic range the elastic left Cauchy-Green tensor at the end of a history of
converged steps is `F Fᵀ` for the current deformation gradient, independent of the path, when each
step starts from the converged state of the previous one. -/
theorem C21_elastic {K : Type*} [Field K] [DecidableEq K] {n : Nat}
    (l : List (List (Matrix (Fin n) (Fin n) K))) (F G : Matrix (Fin n) (Fin n) K)
    (h' : Matrix (Fin n) (Fin n) K)
    (chain : List.IsChain (fun a b => a.getLast? = b.head?) ([F] :: l ++ [[G]]))
    (hs : Steps (elasticLaw (K := K)) (F * F.transpose) l h') :
    h' = G * G.transpose := by
  generalize hb : F * F.transpose = b at hs
  induction hs generalizing F with
  | nil h =>
    simp only [List.cons_append, List.nil_append, List.isChain_cons_cons] at chain
    have : F = G := by simpa using chain.1
    rw [← hb, this]
  | cons h h1 h' F0 l r d hl hr ih =>
    subst hb
    simp only [List.cons_append, List.isChain_cons_cons] at chain
    obtain ⟨c1, c2⟩ := chain
    have hF : F = F0 := by simpa using c1
    subst hF
    set L := (F :: l).getLast (by simp) with hL
    have hdet : ¬ (F.det = 0 ∨ L.det = 0) := by
      intro hh
      unfold elasticLaw at hl
      rw [if_pos hh] at hl
      simp at hl
    apply ih L
    · have : (F :: l).getLast? = [L].getLast? := by
        rw [List.getLast?_eq_some_getLast (by simp)]; simp [hL]
      cases r with
      | nil =>
        simp only [List.nil_append, List.isChain_cons_cons, List.cons_append] at c2 ⊢
        rw [this] at c2; exact c2
      | cons x r =>
        simp only [List.isChain_cons_cons, List.cons_append] at c2 ⊢
        rw [this] at c2; exact c2
    · unfold elasticLaw at hl
      rw [if_neg hdet] at hl
      simp only [Sum.inl.injEq, Prod.mk.injEq] at hl
      rw [← hl.1]
      have hu : IsUnit F.det := isUnit_iff_ne_zero.2 (fun h => hdet (Or.inl h))
      have e1 : L * F⁻¹ * (F * F.transpose) * (L * F⁻¹).transpose =
          L * (F⁻¹ * F) * (L * (F⁻¹ * F)).transpose := by
        simp only [Matrix.transpose_mul, Matrix.mul_assoc]
      rw [e1, Matrix.nonsing_inv_mul F hu, Matrix.mul_one]

example : ∃ A h' : Matrix (Fin 1) (Fin 1) ℚ, A ≠ 1 ∧
    Steps elasticLaw (1 * (1 : Matrix (Fin 1) (Fin 1) ℚ).transpose) [[1, A]] h' := by
  obtain ⟨A, hA⟩ : ∃ A : Matrix (Fin 1) (Fin 1) ℚ, A = Matrix.of ![![2]] := ⟨_, rfl⟩
  have hd : A.det ≠ 0 := by rw [hA]; simp
  have h : elasticLaw (1 * (1 : Matrix (Fin 1) (Fin 1) ℚ).transpose) 1 A 1 false =
      .inl ((A * 1⁻¹) * (1 * (1 : Matrix (Fin 1) (Fin 1) ℚ).transpose) *
        (A * 1⁻¹).transpose, false) := by
    unfold elasticLaw
    rw [if_neg]
    rintro (h | h)
    · simp at h
    · exact hd h
  refine ⟨A, _, ?_, Steps.cons _ _ _ 1 [A] [] false h (Steps.nil _)⟩
  intro h
  have := congrFun (congrFun h 0) 0
  rw [hA] at this
  norm_num at this

/-- A failed attempt after the first load step corrupts the history, in every dimension: after a
converged first step with deformation gradient `F`, a failed attempt that stopped at `G`, and the
restart from `F`, the elastic left Cauchy-Green tensor for `F` is `G Gᵀ` instead of `F Fᵀ`. -/
theorem C21_restart_violated :
    (∀ (n : Nat) (F G : Matrix (Fin n) (Fin n) ℚ), F.det ≠ 0 → G.det ≠ 0 →
      (simulate elasticLaw [(true, [F]), (false, [F, G]), (false, [F])]
        (newPoint 1 0 1)).hc = G * G.transpose) ∧
    ∃ F G : Matrix (Fin 1) (Fin 1) ℚ, F.det ≠ 0 ∧ G.det ≠ 0 ∧
      G * G.transpose ≠ F * F.transpose := by
  constructor
  · intro n F G hF hG
    have hu : IsUnit F.det := isUnit_iff_ne_zero.2 hF
    have h1 : (1 : Matrix (Fin n) (Fin n) ℚ).det ≠ 0 := by rw [Matrix.det_one]; exact one_ne_zero
    have l1 : elasticLaw (1 : Matrix (Fin n) (Fin n) ℚ) 1 F 0 true =
        .inl (F * F.transpose, false) := by
      unfold elasticLaw; rw [if_neg (fun h => h.elim h1 hF)]; simp
    have l2 : elasticLaw (K := ℚ) (n := n) (F * F.transpose) F G 1 false =
        .inl (G * G.transpose, false) := by
      unfold elasticLaw
      rw [if_neg (fun h => h.elim hF hG)]
      have e1 : G * F⁻¹ * (F * F.transpose) * (G * F⁻¹).transpose =
          G * (F⁻¹ * F) * (G * (F⁻¹ * F)).transpose := by
        simp only [Matrix.transpose_mul, Matrix.mul_assoc]
      rw [e1, Matrix.nonsing_inv_mul F hu, Matrix.mul_one]
    have l3 : elasticLaw (K := ℚ) (n := n) (G * G.transpose) F F 0 false =
        .inl (G * G.transpose, false) := by
      unfold elasticLaw
      rw [if_neg (fun h => h.elim hF hF), Matrix.mul_nonsing_inv F hu]
      simp
    simp only [simulate]
    obtain ⟨a1, b1⟩ := attempt_last elasticLaw true 0 [] F (newPoint 1 0 1) (Or.inl rfl) _ _ l1
    rw [List.nil_append] at a1 b1
    obtain ⟨a2, b2, _, _⟩ := attempt_next elasticLaw (attempt elasticLaw true 0 [F] (newPoint 1 0 1))
      F [G] b1 (G * G.transpose) false (by rw [a1]; exact l2)
    obtain ⟨a3, _⟩ := attempt_next elasticLaw _ F [] b2 (G * G.transpose) false
      (by rw [a2]; exact l3)
    exact a3
  · refine ⟨1, Matrix.of ![![2]], by simp, by simp, ?_⟩
    intro h
    have := congrFun (congrFun h 0) 0
    norm_num [Matrix.mul_apply] at this

theorem evalAll_get (law : Law H T) (mk : Point H T) (it : Nat) (first : Bool)
    (r : List (Nat × T)) (l l' : List (Option (Point H T)))
    (hn : (r.map Prod.fst).Nodup) (he : evalAll law mk it first r l = some l') :
    (∀ x ∈ r, ∃ q, l[x.1]? = some q ∧ (q = none → it = 0 ∧ first = true) ∧
      l'[x.1]? = some (some (itgEval law x.2 it first (q.getD mk)).2)) ∧
    (∀ j, j ∉ r.map Prod.fst → l'[j]? = l[j]?) ∧ l'.length = l.length := by
  induction r generalizing l with
  | nil =>
    simp only [evalAll, Option.some.injEq] at he
    subst he
    simp
  | cons x r ih =>
    obtain ⟨i, F⟩ := x
    rw [List.map_cons, List.nodup_cons] at hn
    obtain ⟨hni, hn⟩ := hn
    simp only [evalAll] at he
    cases hx : evalAt law mk i F it first l with
    | none => rw [hx] at he; simp at he
    | some y =>
      obtain ⟨b, l1⟩ := y
      rw [hx] at he
      simp only [] at he
      obtain ⟨k1, k2, k3⟩ := ih l1 hn he
      have hset : ∃ q, l[i]? = some q ∧ (q = none → it = 0 ∧ first = true) ∧
          l1 = l.set i (some (itgEval law F it first (q.getD mk)).2) := by
        unfold evalAt at hx
        cases hq : l[i]? with
        | none => rw [hq] at hx; simp at hx
        | some q =>
          rw [hq] at hx
          cases q with
          | none =>
            simp only [] at hx
            split_ifs at hx with hc
            simp only [Option.some.injEq, Prod.mk.injEq] at hx
            exact ⟨none, rfl, fun _ => hc, hx.2.symm⟩
          | some p =>
            simp only [Option.some.injEq, Prod.mk.injEq] at hx
            exact ⟨some p, rfl, by simp, hx.2.symm⟩
      obtain ⟨q, q1, q2, q3⟩ := hset
      have hlt : i < l.length := by
        by_contra hc
        rw [List.getElem?_eq_none (not_lt.1 hc)] at q1
        simp at q1
      refine ⟨?_, ?_, ?_⟩
      · intro x hx'
        rw [List.mem_cons] at hx'
        rcases hx' with rfl | hx'
        · refine ⟨q, q1, q2, ?_⟩
          simp only []
          rw [k2 i hni, q3, List.getElem?_set_self hlt]
        · obtain ⟨q', a, b, c⟩ := k1 x hx'
          refine ⟨q', ?_, b, c⟩
          have hne : i ≠ x.1 := by
            rintro rfl
            exact hni (List.mem_map.2 ⟨x, hx', rfl⟩)
          rw [q3, List.getElem?_set_ne hne] at a
          exact a
      · intro j hj
        rw [List.map_cons, List.mem_cons, not_or] at hj
        rw [k2 j hj.2, q3, List.getElem?_set_ne (Ne.symm hj.1)]
      · rw [k3, q3, List.length_set]

/-- C21: the integration points do not influence each other: when every point is visited at most
once in an integration loop, in any order, each visited point makes exactly one iteration on its
own data (points created now start from the initial state, which only happens in the first
iteration of the first step), and the other points keep their data. -/
theorem C21_points (law : Law H T) (mk : Point H T) (hmk : mk.upd = .no) (it : Nat) (first : Bool)
    (r : List (Nat × T)) (l l' : List (Option (Point H T))) (hn : (r.map Prod.fst).Nodup)
    (he : evalAll law mk it first r (initAll it first l) = some l') :
    (∀ i F, (i, F) ∈ r → ∃ q, l[i]? = some q ∧ (q = none → it = 0 ∧ first = true) ∧
      l'[i]? = some (some (iteration law first it F (q.getD mk)))) ∧
    (∀ j, j ∉ r.map Prod.fst → l'[j]? = l[j]?.map (Option.map (initPoint it first))) ∧
    l'.length = l.length := by
  obtain ⟨h1, h2, h3⟩ := evalAll_get law mk it first r _ l' hn he
  refine ⟨?_, ?_, ?_⟩
  · intro i F hiF
    obtain ⟨q, a, b, c⟩ := h1 (i, F) hiF
    simp only [initAll, List.getElem?_map] at a
    cases hl : l[i]? with
    | none => rw [hl] at a; simp at a
    | some q0 =>
      rw [hl] at a
      simp only [Option.map_some, Option.some.injEq] at a
      refine ⟨q0, rfl, ?_, ?_⟩
      · rintro rfl; exact b (by rw [← a]; rfl)
      · rw [c, ← a]
        cases q0 with
        | none =>
          simp only [Option.map_none, Option.getD_none, iteration]
          have : initPoint it first mk = mk := by
            unfold initPoint updateState; rw [if_pos hmk]
          rw [this]
        | some p => rfl
  · intro j hj
    rw [h2 j hj, initAll, List.getElem?_map]
  · rw [h3, initAll, List.length_map]

end C21

/-! ### C23 -/

section C23
variable {K : Type*} [Field K] [CharZero K]

/-- Double contraction of symmetric tensors given by components: shear components count twice. -/
def wdot {n : Nat} (w : Fin n → K) (a b : Fin n → K) : K := ∑ i, w i * a i * b i

theorem wdot_trap {n : Nat} (w a b x y : Fin n → K) (h : wdot w a y = wdot w b x) :
    wdot w (fun i => a i + b i) (fun i => x i - y i) = wdot w a x - wdot w b y := by
  have : wdot w (fun i => a i + b i) (fun i => x i - y i) =
      wdot w a x - wdot w b y + (wdot w b x - wdot w a y) := by
    unfold wdot
    rw [← Finset.sum_sub_distrib, ← Finset.sum_sub_distrib, ← Finset.sum_add_distrib]
    exact Finset.sum_congr rfl fun i _ => by ring
  rw [this, h]; ring

theorem wdot_smul {n : Nat} (w a x : Fin n → K) (c : K) :
    wdot w (fun i => c * a i) x = c * wdot w a x := by
  unfold wdot
  rw [Finset.mul_sum]
  exact Finset.sum_congr rfl fun i _ => by ring

/-- C23: along any finite loading path at constant volume ratio `J`, with a linear material law
`C` that is symmetric with respect to the double contraction, the energy returned is the closed form
`½ (C E):E` of the final strain. `S = C E / J` is what the code passes (the pulled back Cauchy
stress). Missing: a varying volume ratio, see `C23_volume_violated`. -/
theorem C23_path_partial {n : Nat} (w : Fin n → K) (C : (Fin n → K) → (Fin n → K))
    (hC : ∀ x y, wdot w (C x) y = wdot w (C y) x) (hC0 : C (fun _ => 0) = fun _ => 0)
    (J : K) (hJ : J ≠ 0) (l : List (Fin n → K)) (E : Fin n → K) :
    (energyRun (wdot w) ((l ++ [E]).map fun e => (J, fun i => J⁻¹ * C e i, e)) (path0, 0)).2 =
      1 / 2 * wdot w (C E) E := by
  have key : ∀ (l : List (Fin n → K)) (e : Fin n → K) (q : Path K n) (U : K),
      q.sp = (fun i => J⁻¹ * C q.ep i) → q.up = J⁻¹ * (1 / 2 * wdot w (C q.ep) q.ep) →
      (energyRun (wdot w) ((l ++ [e]).map fun e => (J, fun i => J⁻¹ * C e i, e)) (q, U)).2 =
        1 / 2 * wdot w (C e) e := by
    intro l
    have step : ∀ (e : Fin n → K) (q : Path K n), q.sp = (fun i => J⁻¹ * C q.ep i) →
        q.up = J⁻¹ * (1 / 2 * wdot w (C q.ep) q.ep) →
        (energyIntegral (wdot w) (fun i => J⁻¹ * C e i) e q).up =
          J⁻¹ * (1 / 2 * wdot w (C e) e) := by
      intro e q h1 h2
      simp only [energyIntegral]
      rw [wdot_trap w _ _ _ _ (by rw [h1, wdot_smul, wdot_smul, hC]), h1, h2, wdot_smul, wdot_smul]
      ring
    induction l with
    | nil =>
      intro e q U h1 h2
      simp only [List.nil_append, List.map_cons, List.map_nil, energyRun]
      rw [step e q h1 h2]
      field_simp
    | cons a l ih =>
      intro e q U h1 h2
      simp only [List.cons_append, List.map_cons, energyRun]
      exact ih e _ _ rfl (step a q h1 h2)
  apply key
  · simp only [path0]; rw [hC0]; simp
  · simp only [path0]; rw [hC0]; simp [wdot]

/-- With a varying volume ratio the energy is wrong, because the stress increments are accumulated
without it and the sum is multiplied by the current ratio: for the law `S = E` (second
Piola-Kirchhoff stress), strains 1 and 2 with volume ratios 1 and 2 give 3 instead of 2. -/
theorem C23_volume_violated :
    (energyRun (wdot fun _ : Fin 1 => (1 : ℚ))
      [(1, fun _ => 1 / 1, fun _ => 1), (2, fun _ => 2 / 2, fun _ => 2)] (path0, 0)).2 = 3 ∧
    1 / 2 * wdot (fun _ : Fin 1 => (1 : ℚ)) (fun _ => 2) (fun _ => 2) = 2 := by
  constructor
  · simp [energyRun, energyIntegral, wdot, path0]; norm_num
  · simp [wdot]

/-- C23: evaluating the energy again for the same state does not change it. -/
theorem C23_repeat {n : Nat} (w : Fin n → K) (S E : Fin n → K) (q : Path K n) :
    energyIntegral (wdot w) S E (energyIntegral (wdot w) S E q) =
      energyIntegral (wdot w) S E q := by
  simp [energyIntegral, wdot]

/-- C23: the external energy of the updated Lagrangian norms along any loading path: when the
tractions are linear in the displacements with a symmetric matrix, it is half their product. -/
theorem C23_external {n : Nat} (A : (Fin n → K) → (Fin n → K))
    (hA : ∀ x y, ∑ i, A x i * y i = ∑ i, A y i * x i) (hA0 : A (fun _ => 0) = fun _ => 0)
    (l : List (Fin n → K)) (u : Fin n → K) :
    (ulExt ((l ++ [u]).map fun u => (A u, u)) path0).up = 1 / 2 * ∑ i, A u i * u i := by
  have key : ∀ (l : List (Fin n → K)) (u : Fin n → K) (q : Path K n),
      q.sp = A q.ep → q.up = 1 / 2 * ∑ i, A q.ep i * q.ep i →
      (ulExt ((l ++ [u]).map fun u => (A u, u)) q).up = 1 / 2 * ∑ i, A u i * u i := by
    have step : ∀ (u : Fin n → K) (q : Path K n), q.sp = A q.ep →
        q.up = 1 / 2 * ∑ i, A q.ep i * q.ep i →
        q.up + 1 / 2 * ∑ i, (A u i + q.sp i) * (u i - q.ep i) = 1 / 2 * ∑ i, A u i * u i := by
      intro u q h1 h2
      rw [h1, h2]
      have e : ∑ i, (A u i + A q.ep i) * (u i - q.ep i) =
          ∑ i, A u i * u i - ∑ i, A q.ep i * q.ep i +
            (∑ i, A q.ep i * u i - ∑ i, A u i * q.ep i) := by
        rw [← Finset.sum_sub_distrib, ← Finset.sum_sub_distrib, ← Finset.sum_add_distrib]
        exact Finset.sum_congr rfl fun i _ => by ring
      rw [e, hA u q.ep]; ring
    intro l
    induction l with
    | nil => intro u q h1 h2; exact step u q h1 h2
    | cons a l ih => intro u q h1 h2; exact ih u _ rfl (step a q h1 h2)
  apply key
  · simp only [path0]; rw [hA0]
  · simp only [path0]; rw [hA0]; simp

/-- C23: constant tractions, applied from the start of the first step on, do the work `t·u` after
it, plus half of that in the first step in which they are ramped up. -/
theorem C23_external_dead {n : Nat} (t u1 : Fin n → K) (l : List (Fin n → K)) (u : Fin n → K) :
    (ulExt ((t, u1) :: (l ++ [u]).map fun u => (t, u)) path0).up =
      1 / 2 * ∑ i, t i * u1 i + ∑ i, t i * (u i - u1 i) := by
  have key : ∀ (l : List (Fin n → K)) (u : Fin n → K) (q : Path K n) (c : K), q.sp = t →
      q.up = c + ∑ i, t i * (q.ep i - u1 i) →
      (ulExt ((l ++ [u]).map fun u => (t, u)) q).up = c + ∑ i, t i * (u i - u1 i) := by
    have step : ∀ (u : Fin n → K) (q : Path K n) (c : K), q.sp = t →
        q.up = c + ∑ i, t i * (q.ep i - u1 i) →
        q.up + 1 / 2 * ∑ i, (t i + q.sp i) * (u i - q.ep i) = c + ∑ i, t i * (u i - u1 i) := by
      intro u q c h1 h2
      rw [h2, h1, Finset.mul_sum, add_assoc, ← Finset.sum_add_distrib]
      congr 1
      exact Finset.sum_congr rfl fun i _ => by ring
    intro l
    induction l with
    | nil => intro u q c h1 h2; exact step u q c h1 h2
    | cons a l ih => intro u q c h1 h2; exact ih u _ c rfl (step a q c h1 h2)
  simp only [ulExt]
  apply key
  · rfl
  · simp [path0]

example : ∀ x y : Fin 2 → ℚ, wdot (fun _ => 1) ((fun v i => 3 * v i) x) y =
    wdot (fun _ => 1) ((fun v i => 3 * v i) y) x := by
  intro x y; simp [wdot, Fin.sum_univ_two]; ring

end C23

end Verif.Plastic

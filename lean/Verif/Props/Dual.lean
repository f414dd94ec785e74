/-
C125: quantities of interest. An extraction function `w` gives a dual load, and the value `a(u^h,w)` is reported with the norms.
-/
import Verif.Model.Dual
import Verif.Props.Thermal
import Verif.Props.Continuum
import Verif.Props.Norms

namespace Verif.Dual

open Verif.LinIso Verif.Thermal Verif.Modes Verif.Norms.Spec

/-! ### Extraction functions -/

section
variable {K : Type*}

/-- **C125**: after the extraction functions `f :: fs` of an input have been added to a new integrand, all of them are kept in their order, the first one defines the dual load, there is one
solution vector for each of them besides the displacement, the elements get their centre, and a dual load vector is assembled as the second one in static analyses. -/
theorem C125_functions (f : Fun K) (fs : List (Fun K)) (h : ∀ g ∈ f :: fs, g.isVec = true) :
    let s := (f :: fs).foldl (fun s g => addExtr s (some g)) ({} : Extr K)
    s.dualFld = f :: fs ∧ s.dualRHS = some f ∧ s.nSV = 2 + fs.length ∧ s.nCS = 2 + fs.length ∧ needsCentre s = true ∧
      modeDS s .static = 2 ∧ modeDS s .norms = 2 ∧ ∀ m, m ≠ .static → m ≠ .norms → modeDS s m = 1 := by
  have gen : ∀ (l : List (Fun K)) (s : Extr K) (r : Fun K), (∀ g ∈ l, g.isVec = true) → s.dualRHS = some r → s.dS = 1 → s.nSV = 1 + s.dualFld.length → s.nCS = 1 + s.dualFld.length →
      let t := l.foldl (fun s g => addExtr s (some g)) s
      t.dualFld = s.dualFld ++ l ∧ t.dualRHS = some r ∧ t.nSV = 1 + t.dualFld.length ∧ t.nCS = 1 + t.dualFld.length ∧ t.dS = 1 := by
    intro l
    induction l with
    | nil => intro s r _ h1 h2 h3 h4; simp [h1, h2, h3, h4]
    | cons g l ih =>
      intro s r hl h1 h2 h3 h4
      have hg := hl g (by simp)
      have e : addExtr s (some g) = { s with dualFld := s.dualFld ++ [g], dualRHS := some r, nSV := 1 + (s.dualFld.length + 1), nCS := 1 + (s.dualFld.length + 1), dS := 1 } := by
        simp [addExtr, hg, h1]
      obtain ⟨i1, i2, i3, i4, i5⟩ := ih (addExtr s (some g)) r (fun x hx => hl x (by simp [hx])) (by rw [e]) (by rw [e]) (by rw [e]; simp) (by rw [e]; simp)
      refine ⟨?_, i2, i3, i4, i5⟩
      rw [List.foldl_cons, i1, e]
      simp
  have hf := h f (by simp)
  have e : addExtr ({} : Extr K) (some f) = { dualFld := [f], dualRHS := some f, nSV := 2, nCS := 2, dS := 1 } := by simp [addExtr, hf]
  obtain ⟨i1, i2, i3, i4, i5⟩ := gen fs (addExtr {} (some f)) f (fun x hx => h x (by simp [hx])) (by rw [e]) (by rw [e]) (by rw [e]; rfl) (by rw [e]; rfl)
  intro s
  have hs : s = fs.foldl (fun s g => addExtr s (some g)) (addExtr {} (some f)) := rfl
  rw [← hs] at i1 i2 i3 i4 i5
  rw [e] at i1
  have i1' : s.dualFld = f :: fs := i1
  refine ⟨i1', i2, ?_, ?_, ?_, ?_, ?_, ?_⟩
  · rw [i3, i1']; simp; omega
  · rw [i4, i1']; simp; omega
  · simp [needsCentre, i1']
  · simp [modeDS, i5]
  · simp [modeDS, i5]
  · intro m h1 h2; simp [modeDS, i5, h1, h2]

/-- **C125**: the preprocessing makes the dual field of the simulator the one that defines the dual load, if there is one, and changes nothing else; removing the functions leaves none,
neither in the norms nor for the load. -/
theorem C125_replace (s : Extr K) (f : Fun K) : setRHS s none = s ∧ (setRHS s (some f)).dualRHS = some f ∧ (setRHS s (some f)).dualFld = s.dualFld ∧ (setRHS s (some f)).nSV = s.nSV ∧
    (addExtr s none).dualFld = [] ∧ (addExtr s none).dualRHS = none ∧ needsCentre (addExtr s none) = false := ⟨rfl, rfl, rfl, rfl, rfl, rfl, rfl⟩

/-- **C125** does not hold if one of the functions is not a vector function: it removes all functions given before, which are no longer reported, while their solution vectors remain. -/
theorem C125_functions_violated (f : Fun K) (fs : List (Fun K)) (h : ∀ g ∈ f :: fs, g.isVec = true) (g : Fun K) (hg : g.isVec = false) :
    let s := addExtr ((f :: fs).foldl (fun s g => addExtr s (some g)) ({} : Extr K)) (some g)
    s.dualFld = [] ∧ s.dualRHS = none ∧ s.nSV = 2 + fs.length := by
  obtain ⟨_, _, i3, _⟩ := C125_functions f fs h
  refine ⟨by simp [addExtr, hg], by simp [addExtr, hg], ?_⟩
  rw [← i3]; simp [addExtr, hg]

/-- Two functions, and a third one which is none of vectors. -/
example : ∃ f g k : Fun ℚ, f.isVec = true ∧ g.isVec = true ∧ k.isVec = false ∧ f.inDomain ⟨0, 0, 0⟩ ≠ g.inDomain ⟨0, 0, 0⟩ :=
  ⟨⟨true, fun _ => true⟩, ⟨true, fun X => decide (0 < X.x)⟩, ⟨false, fun _ => true⟩, rfl, rfl, rfl, by simp⟩

/-! ### Element vectors -/

/-- The values of a solution vector at the nodes of an element. -/
def nodal [Zero K] (npv : Nat) (nodes : List Nat) (v : List K) : List K := nodes.flatMap fun n => (List.range npv).map fun i => v.getD (npv * n + i) 0

/-- The solution vectors which have values in an element: the displacements and, in static analyses, the function of the dual load in its domain; in the norms each function in its domain. -/
def active (s : Extr K) (m : Mode) (XC : Pt K) (i : Nat) : Prop :=
  i = 0 ∨ (i = 1 ∧ m = .static ∧ ∃ f, s.dualRHS = some f ∧ f.inDomain XC = true) ∨
  (1 ≤ i ∧ (m = .recovery ∨ m = .norms) ∧ ∃ f, s.dualFld[i - 1]? = some f ∧ f.inDomain XC = true) ∨
  (1 ≤ i ∧ (m = .static → i ≠ 1) ∧ m ≠ .recovery ∧ m ≠ .norms)

theorem haveValues_iff (s : Extr K) (m : Mode) (XC : Pt K) (i : Nat) : haveValues s m XC i = true ↔ active s m XC i := by
  have hm : Mode.recovery.val ≤ m.val ↔ m = .recovery ∨ m = .norms := by cases m <;> decide
  unfold haveValues active
  by_cases h1 : i = 1 ∧ m = .static
  · obtain ⟨rfl, rfl⟩ := h1
    cases h : s.dualRHS <;> simp
  · rw [if_neg h1]
    by_cases h2 : 0 < i ∧ Mode.recovery.val ≤ m.val
    · rw [if_pos h2]
      have h3 := hm.1 h2.2
      constructor
      · intro h
        refine Or.inr (Or.inr (Or.inl ⟨by omega, h3, ?_⟩))
        cases hd : s.dualFld[i - 1]? with
        | none => rw [hd] at h; simp at h
        | some f => rw [hd] at h; exact ⟨f, rfl, h⟩
      · rintro (h | ⟨h, h', _⟩ | ⟨_, _, f, hf, hx⟩ | ⟨_, _, h, h'⟩)
        · omega
        · exact absurd ⟨h, h'⟩ h1
        · rw [hf]; exact hx
        · rcases h3 with h3 | h3
          · exact absurd h3 h
          · exact absurd h3 h'
    · rw [if_neg h2]
      rw [hm] at h2
      simp only [true_iff]
      by_cases h0 : i = 0
      · exact Or.inl h0
      · refine Or.inr (Or.inr (Or.inr ⟨by omega, fun h h' => h1 ⟨h', h⟩, fun h => h2 ⟨by omega, Or.inl h⟩, fun h => h2 ⟨by omega, Or.inr h⟩⟩))

theorem gather_ok [Zero K] (npv : Nat) (nodes : List Nat) (v : List K) (h : ∀ n ∈ nodes, npv * n + npv ≤ v.length) : gather npv nodes v = .ok (nodal npv nodes v) := if_pos h

theorem nsol_le (sol : List (List K)) : ∀ n, nsol sol n ≤ n
  | 0 => by simp [nsol]
  | 1 => by simp [nsol]
  | n + 2 => by
    unfold nsol
    split
    · exact (nsol_le sol (n + 1)).trans (by omega)
    · exact le_refl _

theorem nsol_tail (sol : List (List K)) : ∀ n i, nsol sol n ≤ i → 1 ≤ i → i < n → sol.getD i [] = []
  | 0, i, _, _, h => by omega
  | 1, i, _, _, h => by omega
  | n + 2, i, h1, h2, h3 => by
    unfold nsol at h1
    split at h1
    · rename_i he
      by_cases hi : i = n + 1
      · subst hi; simpa using he
      · exact nsol_tail sol (n + 1) i h1 h2 (by omega)
    · omega

open Classical in
theorem initLoop_ok [Zero K] (s : Extr K) (m : Mode) (npv : Nat) (nodes : List Nat) (XC : Pt K) : ∀ (l : List (List K)) (i : Nat),
    (∀ v ∈ l, v = [] ∨ ∀ n ∈ nodes, npv * n + npv ≤ v.length) →
    ∃ vec, initLoop s m npv nodes XC i l = .ok vec ∧ vec.length = l.length ∧
      ∀ j, vec.getD j [] = if l.getD j [] ≠ [] ∧ active s m XC (i + j) then nodal npv nodes (l.getD j []) else []
  | [], i, _ => ⟨[], rfl, rfl, by simp⟩
  | v :: l, i, h => by
    obtain ⟨vec, e, hl, hv⟩ := initLoop_ok s m npv nodes XC l (i + 1) (fun x hx => h x (by simp [hx]))
    have he : (if v.isEmpty then .ok [] else if haveValues s m XC i then gather npv nodes v else .ok [] : Res (List K)) =
        .ok (if v ≠ [] ∧ active s m XC i then nodal npv nodes v else []) := by
      by_cases h0 : v = []
      · simp [h0]
      · have h0' : v.isEmpty = false := by simp [h0]
        rw [h0']
        by_cases h1 : active s m XC i
        · rw [(haveValues_iff s m XC i).2 h1]
          have := (h v (by simp)).resolve_left h0
          rw [if_neg (by simp), if_pos rfl, gather_ok npv nodes v this, if_pos ⟨h0, h1⟩]
        · have : haveValues s m XC i = false := by
            rw [← Bool.not_eq_true, haveValues_iff]; exact h1
          simp [this, h1]
    refine ⟨(if v ≠ [] ∧ active s m XC i then nodal npv nodes v else []) :: vec, ?_, by simp [hl], ?_⟩
    · unfold initLoop; rw [he]; simp only [Res.bind, e]
    intro j
    cases j with
    | zero => simp
    | succ j =>
      have := hv j
      rw [show i + 1 + j = i + (j + 1) by omega] at this
      simpa using this

open Classical in
/-- **C125**: an element gets the values of the displacements at its nodes, those of the extraction function of the dual load in static analyses, if the centre of the element is in the domain
of the function, and those of each extraction function in its own domain for the norms; vectors without values give none. -/
theorem C125_gather [Zero K] (s : Extr K) (m : Mode) (npv : Nat) (nodes : List Nat) (XC : Pt K) (sol : List (List K))
    (h : ∀ v ∈ sol, v = [] ∨ ∀ n ∈ nodes, npv * n + npv ≤ v.length) :
    ∃ vec, initElement s m npv nodes XC sol = .ok vec ∧ vec ≠ [] ∧
      ∀ i, vec.getD i [] = if sol.getD i [] ≠ [] ∧ active s m XC i then nodes.flatMap (fun n => (List.range npv).map fun k => (sol.getD i []).getD (npv * n + k) 0) else [] := by
  unfold initElement
  have ht := nsol_tail sol sol.length
  have hle := nsol_le sol sol.length
  have h00 : active s m XC 0 := Or.inl rfl
  by_cases h1 : nsol sol sol.length ≤ 1
  · rw [if_pos h1]
    have hrest : ∀ i, 1 ≤ i → sol.getD i [] = [] := by
      intro i hi
      by_cases hl : i < sol.length
      · exact ht i (by omega) hi hl
      · simp [List.getD_eq_getElem?_getD, List.getElem?_eq_none (by omega : sol.length ≤ i)]
    cases sol with
    | nil => exact ⟨[[]], rfl, by simp, fun i => by cases i <;> simp⟩
    | cons v l =>
      by_cases h0 : v = []
      · refine ⟨[[]], by simp [h0], by simp, fun i => ?_⟩
        cases i with
        | zero => simp [h0]
        | succ i => simp only [hrest (i + 1) (by omega)]; simp
      · have hv := (h v (by simp)).resolve_left h0
        have h0' : v.isEmpty = false := by simp [h0]
        refine ⟨[nodal npv nodes v], ?_, by simp, fun i => ?_⟩
        · simp only [h0', Bool.false_eq_true, if_false]
          rw [gather_ok npv nodes v hv]; rfl
        · cases i with
          | zero => simp [h0, h00, nodal]
          | succ i => simp only [hrest (i + 1) (by omega)]; simp
  · rw [if_neg h1]
    obtain ⟨vec, e, hl, hv⟩ := initLoop_ok s m npv nodes XC (sol.take (nsol sol sol.length)) 0 (fun v hv => h v (List.mem_of_mem_take hv))
    refine ⟨vec, e, ?_, fun i => ?_⟩
    · intro hn
      rw [hn] at hl
      simp only [List.length_nil, List.length_take] at hl
      omega
    · rw [hv i, zero_add]
      by_cases hi : i < nsol sol sol.length
      · have : (sol.take (nsol sol sol.length)).getD i [] = sol.getD i [] := by
          simp [List.getD_eq_getElem?_getD, List.getElem?_take, hi]
        rw [this]; rfl
      · have h2 : (sol.take (nsol sol sol.length)).getD i [] = [] := by
          simp [List.getD_eq_getElem?_getD, List.getElem?_take, hi]
        have h3 : sol.getD i [] = [] := by
          by_cases hl : i < sol.length
          · exact ht i (by omega) (by omega) hl
          · simp [List.getD_eq_getElem?_getD, List.getElem?_eq_none (by omega : sol.length ≤ i)]
        rw [h2, h3]; simp

/-- **C125**: displacements without values for a node of the element are an error. -/
theorem C125_missing [Zero K] (s : Extr K) (m : Mode) (npv : Nat) (nodes : List Nat) (XC : Pt K) (v : List K) (sol : List (List K)) (hv : v ≠ []) (n : Nat) (hn : n ∈ nodes)
    (h : v.length < npv * n + npv) : initElement s m npv nodes XC (v :: sol) = .fail := by
  have h0 : v.isEmpty = false := by simp [hv]
  have hg : gather npv nodes v = .fail := by
    unfold gather
    rw [if_neg]
    intro hc
    have := hc n hn
    omega
  unfold initElement
  split
  · simp only [h0, Bool.false_eq_true, if_false, hg]; rfl
  · rename_i h1
    obtain ⟨k, hk⟩ : ∃ k, nsol (v :: sol) (v :: sol).length = k + 1 := ⟨nsol (v :: sol) (v :: sol).length - 1, by omega⟩
    rw [hk, List.take_succ_cons]
    unfold initLoop
    rw [(haveValues_iff s m XC 0).2 (Or.inl rfl)]
    simp only [h0, Bool.false_eq_true, if_false, if_true, hg]
    rfl

example : ∃ vec, initElement ({ dualRHS := some ⟨true, fun X => decide (0 < X.x)⟩, dS := 1 } : Extr ℚ) .static 2 [2, 0] ⟨1, 0, 0⟩ [[], [1, 2, 3, 4, 5, 6], []] = .ok vec ∧
    vec.getD 0 [] = [] ∧ vec.getD 1 [] = [5, 6, 1, 2] := ⟨[[], [5, 6, 1, 2]], by decide +kernel, rfl, rfl⟩

end

/-! ### Dual load -/

section
variable {K : Type*} [Field K]

/-- Product of stresses and strains: `Σ (C x)_k y_k`. -/
def prod (n : Nat) (C : DMat K) (x y : Nat → K) : K := ∑ k ∈ Finset.range n, (∑ l ∈ Finset.range n, C.e (k + 1) (l + 1) * x (l + 1)) * y (k + 1)

theorem prod_comm (n : Nat) (C : DMat K) (hC : ∀ i j, i < n → j < n → C.e (i + 1) (j + 1) = C.e (j + 1) (i + 1)) (x y : Nat → K) : prod n C x y = prod n C y x := by
  unfold prod
  simp only [Finset.sum_mul]
  rw [Finset.sum_comm]
  refine Finset.sum_congr rfl fun k hk => Finset.sum_congr rfl fun l hl => ?_
  rw [hC l k (Finset.mem_range.1 hl) (Finset.mem_range.1 hk)]
  ring

/-- The element stiffness times a vector. -/
theorem stiffness_mulV (nd n : Nat) (pts : List (DMat K × DMat K × K)) (h : ∀ p ∈ pts, p.1.nr = n ∧ p.1.nc = nd ∧ p.2.1.nc = n) (x : Nat → K) (d : Nat) :
    (Cont.stiffness nd pts).mulV x d = (pts.map fun p => ∑ k ∈ Finset.range n, p.1.e (k + 1) d * ((∑ l ∈ Finset.range n, p.2.1.e (k + 1) (l + 1) * p.1.mulV x (l + 1)) * p.2.2)).sum := by
  have gen : ∀ (EK : DMat K), EK.nc = nd → (pts.foldl (fun EK p => Cont.addKm EK p.1 p.2.1 p.2.2) EK).mulV x d = EK.mulV x d
      + (pts.map fun p => ∑ k ∈ Finset.range n, p.1.e (k + 1) d * ((∑ l ∈ Finset.range n, p.2.1.e (k + 1) (l + 1) * p.1.mulV x (l + 1)) * p.2.2)).sum := by
    induction pts with
    | nil => intro EK _; simp
    | cons p pts ih =>
      intro EK hE
      obtain ⟨h1, h2, h3⟩ := h p (by simp)
      rw [List.foldl_cons, ih (fun q hq => h q (by simp [hq])) (Cont.addKm EK p.1 p.2.1 p.2.2) hE, List.map_cons, List.sum_cons, ← add_assoc]
      congr 1
      simp only [DMat.mulV, Cont.addKm, hE, h1, h2, h3, add_mul, Finset.sum_add_distrib]
      congr 1
      simp only [Finset.sum_mul, Finset.mul_sum]
      rw [Finset.sum_comm]
      refine Finset.sum_congr rfl fun k _ => ?_
      rw [Finset.sum_comm]
      refine Finset.sum_congr rfl fun l _ => Finset.sum_congr rfl fun j _ => by ring
  have := gen (DMat.zero nd nd) rfl
  rw [show Cont.stiffness nd pts = pts.foldl (fun EK p => Cont.addKm EK p.1 p.2.1 p.2.2) (DMat.zero nd nd) from rfl, this]
  simp [DMat.mulV, DMat.zero]

variable [LinearOrder K] [IsStrictOrderedRing K]

/-- The constitutive matrix of a point. -/
def IsC (m : Mat K) (nsd : Nat) (p : Pnt K) (C : DMat K) : Prop := ∀ eps, ∃ o, (evaluate m nsd (nst nsd m.axiSymmetry) p.fe p.X eps 1).2 = .ok o ∧ o.C = C

theorem cmat_facts (m : Mat K) (nsd : Nat) (hn : nsd = 2 ∨ nsd = 3) (E nu : K) : ∃ C, cmat E nu nsd m.planeStress m.axiSymmetry false = .ok C ∧
    C.nr = nst nsd m.axiSymmetry ∧ C.nc = nst nsd m.axiSymmetry ∧ ∀ i j, i < nst nsd m.axiSymmetry → j < nst nsd m.axiSymmetry → C.e (i + 1) (j + 1) = C.e (j + 1) (i + 1) := by
  rcases hn with rfl | rfl
  · cases m.axiSymmetry
    · obtain ⟨C, h1, h2, h3, h4⟩ := cmat_2d E nu m.planeStress false
      refine ⟨C, h1, h2, h3, fun i j hi hj => ?_⟩
      have hi : i < 3 := hi
      have hj : j < 3 := hj
      have a := congrFun (congrFun h4 ⟨i, hi⟩) ⟨j, hj⟩
      have b := congrFun (congrFun h4 ⟨j, hj⟩) ⟨i, hi⟩
      simp only [DMat.toM] at a b
      rw [a, b]
      interval_cases i <;> interval_cases j <;> rfl
    · obtain ⟨C, h1, h2, h3, h4⟩ := cmat_axi E nu m.planeStress false
      refine ⟨C, h1, h2, h3, fun i j hi hj => ?_⟩
      have hi : i < 4 := hi
      have hj : j < 4 := hj
      have a := congrFun (congrFun h4 ⟨i, hi⟩) ⟨j, hj⟩
      have b := congrFun (congrFun h4 ⟨j, hj⟩) ⟨i, hi⟩
      simp only [DMat.toM] at a b
      rw [a, b]
      interval_cases i <;> interval_cases j <;> rfl
  · have hn : nst 3 m.axiSymmetry = 6 := by cases m.axiSymmetry <;> rfl
    rw [hn]
    obtain ⟨C, h1, h2, h3, h4⟩ := cmat_3d E nu m.planeStress m.axiSymmetry false
    refine ⟨C, h1, h2, h3, fun i j hi hj => ?_⟩
    have a := congrFun (congrFun h4 ⟨i, hi⟩) ⟨j, hj⟩
    have b := congrFun (congrFun h4 ⟨j, hj⟩) ⟨i, hi⟩
    simp only [DMat.toM] at a b
    rw [a, b]
    interval_cases i <;> interval_cases j <;> rfl

/-- The constitutive matrix and the stresses of a point, in the integration of the element and in the recovery. -/
theorem material (m : Mat K) (nsd : Nat) (hn : nsd = 2 ∨ nsd = 3) (p : Pnt K) (ha : Admissible m p.X) (C : DMat K) (hC : IsC m nsd p C) :
    C.nr = nst nsd m.axiSymmetry ∧ C.nc = nst nsd m.axiSymmetry ∧ (∀ i j, i < nst nsd m.axiSymmetry → j < nst nsd m.axiSymmetry → C.e (i + 1) (j + 1) = C.e (j + 1) (i + 1)) ∧
    (∀ eps, ∃ o, (evaluate m nsd (nst nsd m.axiSymmetry) p.fe p.X eps 1).2 = .ok o ∧ o.sig = some (mulVec C eps)) ∧
    (∀ sz eps, sigOf (evaluate m nsd sz p.fe p.X eps 1) = some (let s0 := assignSig nsd (nst nsd m.axiSymmetry) sz (mulVec C eps)
         if m.planeStress = false ∧ m.axiSymmetry = false ∧ nsd = 2 ∧ sz = 4
         then fun i => if i = 3 then nuAt m p.X * (s0 1 + s0 2) else s0 i
         else s0)) := by
  obtain ⟨D, h1, h2, h3, h4⟩ := cmat_facts m nsd hn (m.young p.fe p.X) (nuAt m p.X)
  have e := fun sz eps => evaluate_eq m nsd sz hn p.fe p.X eps 1 ha (C := D) (by simpa using h1)
  have hD : D = C := by
    obtain ⟨o, a1, a2⟩ := hC fun _ => 0
    obtain ⟨o', b1, b2, _⟩ := e (nst nsd m.axiSymmetry) fun _ => 0
    rw [a1] at b1
    simp only [Res.ok.injEq] at b1
    rw [← b2, ← b1, a2]
  subst hD
  refine ⟨h2, h3, h4, fun eps => ?_, fun sz eps => ?_⟩
  · obtain ⟨o, b1, _, b3, _⟩ := e (nst nsd m.axiSymmetry) eps
    refine ⟨o, b1, ?_⟩
    rw [b3 (by decide)]
    have hne : ¬ (nsd = 2 ∧ nst nsd m.axiSymmetry = 3 ∧ nst nsd m.axiSymmetry = 4) := by omega
    have hne' : ¬ (m.planeStress = false ∧ m.axiSymmetry = false ∧ nsd = 2 ∧ nst nsd m.axiSymmetry = 4) := by
      rintro ⟨_, h, rfl, h'⟩
      rw [h] at h'
      exact absurd h' (by decide)
    simp only [assignSig, if_neg hne, if_neg hne']
  · obtain ⟨o, b1, _, b3, _⟩ := e sz eps
    unfold sigOf
    rw [b1]
    exact b3 (by decide)

/-- The points of an element with `nd` degrees of freedom: sizes of the strain-displacement matrix, admissible material and its matrix. -/
structure Points (m : Mat K) (nsd nd : Nat) (C : Pnt K → DMat K) (ps : List (Pnt K)) : Prop where
  dim : nsd = 2 ∨ nsd = 3
  size : ∀ p ∈ ps, p.B.nr = nst nsd m.axiSymmetry ∧ p.B.nc = nd
  adm : ∀ p ∈ ps, Admissible m p.X
  mat : ∀ p ∈ ps, IsC m nsd p (C p)

theorem Points.tail {m : Mat K} {nsd nd : Nat} {C : Pnt K → DMat K} {ps : List (Pnt K)} {p : Pnt K} (h : Points m nsd nd C (ps ++ [p])) : Points m nsd nd C ps :=
  ⟨h.dim, fun q hq => h.size q (by simp [hq]), fun q hq => h.adm q (by simp [hq]), fun q hq => h.mat q (by simp [hq])⟩

/-- The element stiffness matrix of the static analysis. -/
def stiff (m : Mat K) (nd : Nat) (twoPi : K) (C : Pnt K → DMat K) (ps : List (Pnt K)) : DMat K := Cont.stiffness nd (ps.map fun p => (p.B, C p, vol m.axiSymmetry twoPi p))

/-- The strains from which the dual load is evaluated. -/
theorem dual_of_strains (m : Mat K) (nsd nd : Nat) (twoPi tol : K) (u w : List K) (rest : List (List K)) (C : Pnt K → DMat K) (x : Nat → K)
    (ps : List (Pnt K)) (hP : Points m nsd nd C ps) (hx : ∀ p ∈ ps, kinem p.B w (kinem p.B u fun _ => 0) = p.B.mulV x)
    (hz : ∀ p ∈ ps, (∀ i < nst nsd m.axiSymmetry, p.B.mulV x (i + 1) = 0) ∨ ∃ i < nst nsd m.axiSymmetry, tol < |p.B.mulV x (i + 1)|) :
    ∃ b, dualLoad m nsd twoPi tol 2 (u :: w :: rest) ps = .ok b ∧ ∀ d, b d = (stiff m nd twoPi C ps).mulV x d := by
  have hsz : ∀ q ∈ ps.map (fun p => (p.B, C p, vol m.axiSymmetry twoPi p)), q.1.nr = nst nsd m.axiSymmetry ∧ q.1.nc = nd ∧ q.2.1.nc = nst nsd m.axiSymmetry := by
    intro q hq
    obtain ⟨p, hp, rfl⟩ := List.mem_map.1 hq
    obtain ⟨_, c2, _⟩ := material m nsd hP.dim p (hP.adm p hp) (C p) (hP.mat p hp)
    exact ⟨(hP.size p hp).1, (hP.size p hp).2, c2⟩
  simp only [stiff, fun d => stiffness_mulV nd (nst nsd m.axiSymmetry) _ hsz x d, List.map_map]
  clear hsz
  induction ps using List.reverseRecOn with
  | nil => exact ⟨_, rfl, fun d => by simp⟩
  | append_singleton ps p ih =>
    obtain ⟨b, hb, hd⟩ := ih hP.tail (fun q hq => hx q (by simp [hq])) (fun q hq => hz q (by simp [hq]))
    have hp : p ∈ ps ++ [p] := by simp
    obtain ⟨_, c2, _, c4, _⟩ := material m nsd hP.dim p (hP.adm p hp) (C p) (hP.mat p hp)
    have hstep : dualLoad m nsd twoPi tol 2 (u :: w :: rest) (ps ++ [p]) = dualPoint m nsd twoPi tol 2 (u :: w :: rest) b p := by
      have h0 : dualLoad m nsd twoPi tol 2 (u :: w :: rest) (ps ++ [p]) = (dualLoad m nsd twoPi tol 2 (u :: w :: rest) ps).bind fun b => dualPoint m nsd twoPi tol 2 (u :: w :: rest) b p := by
        simp [dualLoad, List.foldl_append]
      rw [h0, hb]; rfl
    rw [hstep]
    have hlen : ¬ ((2 : Nat) ≤ 1 ∨ (u :: w :: rest).length ≤ 1) := by simp
    have hk : kinem p.B ((u :: w :: rest).getD 1 []) (kinem p.B ((u :: w :: rest).getD 0 []) fun _ => 0) = p.B.mulV x := hx p hp
    unfold dualPoint
    rw [if_neg hlen, hk]
    simp only
    by_cases ht : ∀ i < nst nsd m.axiSymmetry, |p.B.mulV x (i + 1)| ≤ tol
    · rw [if_pos ht]
      refine ⟨b, rfl, fun d => ?_⟩
      rw [hd d, List.map_append, List.sum_append]
      have h0 : ∀ i < nst nsd m.axiSymmetry, p.B.mulV x (i + 1) = 0 := by
        rcases hz p hp with h | ⟨i, hi, h⟩
        · exact h
        · exact absurd (ht i hi) (not_le.2 h)
      have : ∑ k ∈ Finset.range (nst nsd m.axiSymmetry), p.B.e (k + 1) d * ((∑ l ∈ Finset.range (nst nsd m.axiSymmetry), (C p).e (k + 1) (l + 1) * p.B.mulV x (l + 1)) * vol m.axiSymmetry twoPi p) = 0 := by
        refine Finset.sum_eq_zero fun k _ => ?_
        rw [Finset.sum_eq_zero (fun l hl => by rw [h0 l (Finset.mem_range.1 hl), mul_zero])]
        ring
      simp [this]
    · rw [if_neg ht]
      obtain ⟨o, o1, o2⟩ := c4 (p.B.mulV x)
      rw [o1]
      simp only [o2]
      refine ⟨_, rfl, fun d => ?_⟩
      rw [hd d, List.map_append, List.sum_append]
      simp [(hP.size p hp).1, mulVec, c2]

/-- **C125**: in an element of the domain of the extraction function, the dual load is the stiffness of the element times the nodal values `w` of the function, whatever the present solution
`u`. Missing: where the function has strains they exceed the tolerance; see `C125_small_violated`. -/
theorem C125_load_partial (m : Mat K) (nsd nd : Nat) (twoPi tol : K) (u w : List K) (rest : List (List K)) (C : Pnt K → DMat K) (ps : List (Pnt K)) (hP : Points m nsd nd C ps) (hw : w ≠ [])
    (hz : ∀ p ∈ ps, (∀ i < nst nsd m.axiSymmetry, p.B.mulV (comps w) (i + 1) = 0) ∨ ∃ i < nst nsd m.axiSymmetry, tol < |p.B.mulV (comps w) (i + 1)|) :
    ∃ b, dualLoad m nsd twoPi tol 2 (u :: w :: rest) ps = .ok b ∧ ∀ d, b d = ∑ f ∈ Finset.range nd, (stiff m nd twoPi C ps).e d (f + 1) * comps w (f + 1) := by
  obtain ⟨b, hb, hd⟩ := dual_of_strains m nsd nd twoPi tol u w rest C (comps w) ps hP (fun p _ => by simp [kinem, hw]) hz
  refine ⟨b, hb, fun d => ?_⟩
  rw [hd d]
  have : (stiff m nd twoPi C ps).nc = nd := (Cont.stiffness_dim nd _).2
  simp [DMat.mulV, this]

/-- **C125**: an element outside the domain of the extraction function gets no dual load. Missing: there is no present solution; see `C125_outside_violated`. -/
theorem C125_outside_partial (m : Mat K) (nsd : Nat) (twoPi tol : K) (ht : 0 ≤ tol) (rest : List (List K)) (ps : List (Pnt K)) :
    dualLoad m nsd twoPi tol 2 ([] :: [] :: rest) ps = .ok fun _ => 0 := by
  induction ps using List.reverseRecOn with
  | nil => rfl
  | append_singleton ps p ih =>
    have h0 : dualLoad m nsd twoPi tol 2 ([] :: [] :: rest) (ps ++ [p]) = (dualLoad m nsd twoPi tol 2 ([] :: [] :: rest) ps).bind fun b => dualPoint m nsd twoPi tol 2 ([] :: [] :: rest) b p := by
      simp [dualLoad, List.foldl_append]
    rw [h0, ih]
    simp [Res.bind, dualPoint, kinem, ht]

omit [IsStrictOrderedRing K] in
/-- **C125**: without extraction function, in modes without dual load and for elements without further solution vectors, there is no dual load. -/
theorem C125_none (m : Mat K) (nsd : Nat) (twoPi tol : K) (dS : Nat) (vec : List (List K)) (ps : List (Pnt K)) (h : dS ≤ 1 ∨ vec.length ≤ 1) :
    dualLoad m nsd twoPi tol dS vec ps = .ok fun _ => 0 := by
  induction ps using List.reverseRecOn with
  | nil => rfl
  | append_singleton ps p ih =>
    have h0 : dualLoad m nsd twoPi tol dS vec (ps ++ [p]) = (dualLoad m nsd twoPi tol dS vec ps).bind fun b => dualPoint m nsd twoPi tol dS vec b p := by
      simp [dualLoad, List.foldl_append]
    rw [h0, ih]
    simp [Res.bind, dualPoint, h]

/-- **C125** does not hold for an element outside the domain of the extraction function when there is a present solution `u`: the strains of `u` are still in the variable of the strains, and
the element gets the forces of the present solution as dual load. -/
theorem C125_outside_violated (m : Mat K) (nsd nd : Nat) (twoPi tol : K) (u : List K) (rest : List (List K)) (C : Pnt K → DMat K) (ps : List (Pnt K)) (hP : Points m nsd nd C ps) (hu : u ≠ [])
    (hz : ∀ p ∈ ps, (∀ i < nst nsd m.axiSymmetry, p.B.mulV (comps u) (i + 1) = 0) ∨ ∃ i < nst nsd m.axiSymmetry, tol < |p.B.mulV (comps u) (i + 1)|) :
    ∃ b, dualLoad m nsd twoPi tol 2 (u :: [] :: rest) ps = .ok b ∧ ∀ d, b d = ∑ f ∈ Finset.range nd, (stiff m nd twoPi C ps).e d (f + 1) * comps u (f + 1) := by
  obtain ⟨b, hb, hd⟩ := dual_of_strains m nsd nd twoPi tol u [] rest C (comps u) ps hP (fun p _ => by simp [kinem, hu]) hz
  refine ⟨b, hb, fun d => ?_⟩
  rw [hd d]
  have : (stiff m nd twoPi C ps).nc = nd := (Cont.stiffness_dim nd _).2
  simp [DMat.mulV, this]

theorem points_exist (m : Mat K) (nsd nd : Nat) (hn : nsd = 2 ∨ nsd = 3) (ps : List (Pnt K)) (h1 : ∀ p ∈ ps, p.B.nr = nst nsd m.axiSymmetry ∧ p.B.nc = nd)
    (h2 : ∀ p ∈ ps, Admissible m p.X) : ∃ C, Points m nsd nd C ps := by
  classical
  have h : ∀ p : Pnt K, ∃ C, Admissible m p.X → IsC m nsd p C := by
    intro p
    obtain ⟨C, c1, _⟩ := cmat_facts m nsd hn (m.young p.fe p.X) (nuAt m p.X)
    refine ⟨C, fun ha eps => ?_⟩
    obtain ⟨o, o1, o2, _⟩ := evaluate_eq m nsd (nst nsd m.axiSymmetry) hn p.fe p.X eps 1 ha (C := C) (by simpa using c1)
    exact ⟨o, o1, o2⟩
  choose C hC using h
  exact ⟨C, hn, h1, h2, fun p hp => hC p (h2 p hp)⟩

end

/-- The strain-displacement matrix of a square with sides of length 1 along the axes in the corner at the origin, which has the gradients `(-1,-1)`, `(1,0)`, `(0,0)` and `(0,1)`. -/
def cornerB : DMat ℚ := ⟨3, 8, fun i j => ([[-1, 0, 1, 0, 0, 0, 0, 0], [0, -1, 0, 0, 0, 0, 0, 1], [-1, -1, 0, 1, 0, 0, 1, 0]].getD (i - 1) []).getD (j - 1) 0⟩

/-- A material in plane stress. -/
def plate : Mat ℚ := { Emod := 210, nu := 1 / 4, planeStress := true }

def corner : Pnt ℚ := ⟨cornerB, ⟨0, 0, 0⟩, ⟨0, 0, 0⟩, 1⟩

example : ∃ C, Points plate 2 8 C [corner] :=
  points_exist plate 2 8 (Or.inl rfl) [corner] (by simp [corner, cornerB, plate, nst]) (by simp only [List.mem_singleton, forall_eq]; norm_num [Admissible, nuAt, plate])

/-- A component of a load vector. -/
def valOf (r : Res (Nat → ℚ)) (d : Nat) : Option ℚ :=
  match r with
  | .ok b => some (b d)
  | _ => none

theorem of_valOf {r : Res (Nat → ℚ)} {d : Nat} {v : ℚ} (h : valOf r d = some v) : ∃ b, r = .ok b ∧ b d = v := by
  cases r with
  | ok b => exact ⟨b, rfl, by simpa [valOf] using h⟩
  | fail => simp [valOf] at h
  | ub => simp [valOf] at h

/-- A concrete case: an extraction function for `x < 0` and an element with its centre at `x = 1/2`, where the present solution is a stretch in the first direction. -/
theorem C125_outside_case_violated :
    let s : Extr ℚ := { dualRHS := some ⟨true, fun X => decide (X.x < 0)⟩, dualFld := [⟨true, fun X => decide (X.x < 0)⟩], nSV := 2, nCS := 2, dS := 1 }
    ∃ vec b, initElement s .static 2 [0, 1, 2, 3] ⟨1 / 2, 1 / 2, 0⟩ [[0, 0, 1, 0, 1, 0, 0, 0], [0, 0, 1, 1, 1, 1, 0, 0]] = .ok vec ∧ modeDS s .static = 2 ∧
      dualLoad plate 2 0 (1 / 10 ^ 16) 2 vec [corner] = .ok b ∧ b 3 = 224 := by
  intro s
  obtain ⟨b, h1, h2⟩ := of_valOf (r := dualLoad plate 2 0 (1 / 10 ^ 16) 2 [[0, 0, 1, 0, 1, 0, 0, 0], []] [corner]) (d := 3) (v := 224) (by decide +kernel)
  exact ⟨_, b, by decide +kernel, rfl, h1, h2⟩

/-- **C125** does not hold for small values of the extraction function: a function with strains below the tolerance has no dual load, while its multiple has. -/
theorem C125_small_violated :
    (∃ b, dualLoad plate 2 0 (1 / 10 ^ 16) 2 [[], [0, 0, 1 / 10 ^ 17, 0, 1 / 10 ^ 17, 0, 0, 0]] [corner] = .ok b ∧ b 3 = 0) ∧
    (∃ b, dualLoad plate 2 0 (1 / 10 ^ 16) 2 [[], [0, 0, 1, 0, 1, 0, 0, 0]] [corner] = .ok b ∧ b 3 = 224) := by
  exact ⟨of_valOf (by decide +kernel), of_valOf (by decide +kernel)⟩

/-! ### Reported values -/

section
variable {K : Type*} [Field K]

theorem comps_nil : comps ([] : List K) = fun _ => 0 := by funext i; simp [comps]

theorem mulV_zero (B : DMat K) : B.mulV (fun _ => 0) = fun _ => 0 := by funext i; simp [DMat.mulV]

theorem kinem_eq (B : DMat K) (u : List K) : kinem B u (fun _ => 0) = B.mulV (comps u) := by
  unfold kinem
  by_cases h : u = []
  · subst h; simp [comps_nil, mulV_zero]
  · simp [h]

/-- Scalar product of lists of components. -/
theorem dot_range (n : Nat) (f g : Nat → K) : dot ((List.range n).map f) ((List.range n).map g) = ∑ i ∈ Finset.range n, f i * g i := by
  unfold dot
  induction n with
  | zero => simp
  | succ n ih =>
    rw [List.range_succ, List.map_append, List.map_append, List.zipWith_append (by simp), List.sum_append, ih, Finset.sum_range_succ]
    simp

variable [LinearOrder K] [IsStrictOrderedRing K]

/-- The stress of the norms: the constitutive matrix times the strain minus the thermal strain. -/
theorem recovered (m : Mat K) (h : Heat K) (nsd : Nat) (hn : nsd = 2 ∨ nsd = 3) (p : Pnt K) (ha : Admissible m p.X) (C : DMat K) (hC : IsC m nsd p C) (eps : Nat → K)
    (hT : nsd = 2 → m.axiSymmetry = true → m.planeStress = false → getThermalStrain h p.X = 0) :
    ∃ s, recover m h nsd p.fe p.X eps = .ok s ∧ Norms.dropZZ (nst nsd m.axiSymmetry) ((List.range (sigSize m nsd)).map fun i => s (i + 1)) =
      (List.range (nst nsd m.axiSymmetry)).map fun i => mulVec C (subDiag nsd m.axiSymmetry eps (getThermalStrain h p.X)) (i + 1) := by
  obtain ⟨_, _, _, _, c5⟩ := material m nsd hn p ha C hC
  have hs := recover_eq m h nsd p.fe p.X eps _ (c5 (sigSize m nsd) (subDiag nsd m.axiSymmetry eps (getThermalStrain h p.X)))
  refine ⟨_, hs, ?_⟩
  generalize mulVec C (subDiag nsd m.axiSymmetry eps (getThermalStrain h p.X)) = t
  rcases hn with rfl | rfl
  · cases hax : m.axiSymmetry <;> cases hps : m.planeStress
    · simp [sigSize, nst, hax, hps, assignSig, Norms.dropZZ, List.range_succ]
    · simp [sigSize, nst, hax, hps, assignSig, Norms.dropZZ, List.range_succ]
    · have h0 := hT rfl hax hps
      simp [sigSize, nst, hax, hps, assignSig, Norms.dropZZ, List.range_succ, h0]
    · simp [sigSize, nst, hax, hps, assignSig, Norms.dropZZ, List.range_succ]
  · simp [sigSize, nst, assignSig, Norms.dropZZ, List.range_succ]

/-- The slot of the `k`-th value (from 0): after the volume, with the exact value of each function behind it if there is an analytical solution. -/
theorem slot (ana : Bool) (n k : Nat) (hk : k < n) : (qMain ana n)[if ana then 5 + 2 * k else 3 + k]? = some (.ahw k) := by
  unfold qMain
  cases ana
  · simp only [Bool.false_eq_true, if_false]
    rw [List.getElem?_append_right (by simp)]
    simp [hk]
  · simp only [if_true]
    rw [List.getElem?_append_right (by simp)]
    have := Norms.flatMap_get 2 (fun k : Nat => [Qty.ahw k, Qty.auw k]) (List.range n) (by simp) k 0 k (by simp [hk]) (by omega)
    simp only [List.length_cons, List.length_nil]
    rw [show 5 + 2 * k - (0 + 1 + 1 + 1 + 1 + 1) = k * 2 + 0 by omega, this]
    rfl

/-- The values over the points of an element. -/
theorem norm_points (m : Mat K) (h : Heat K) (nsd nd : Nat) (twoPi : K) (n : Nat) (vec : List (List K)) (hv : vec ≠ []) (C : Pnt K → DMat K) (ana : Bool) (np : Nat)
    (ps : List (Norms.Pt K × Pnt K)) (hP : Points m nsd nd C (ps.map Prod.snd)) (hlen : ∀ i ≤ n, vec.getD i [] = [] ∨ (vec.getD i []).length = nd)
    (hd : ∀ q ∈ ps, q.1.ana.isSome = ana ∧ (Norms.nonEmpty q.1.psol).length = np)
    (hT : ∀ q ∈ ps, nsd = 2 → m.axiSymmetry = true → m.planeStress = false → getThermalStrain h q.2.X = 0)
    (nrm : List K) (hnrm : nrm.length = Norms.elNoFields ana n 1 + np * Norms.elNoFields ana n 2) (k : Nat) (hk : k < n) :
    ∃ nrm', elmNorm m h nsd twoPi n vec ps nrm = .ok nrm' ∧ nrm'.length = nrm.length ∧
      Norms.at' nrm' (if ana then 5 + 2 * k else 3 + k) = Norms.at' nrm (if ana then 5 + 2 * k else 3 + k) + (ps.map fun q => vol m.axiSymmetry twoPi q.2 *
        prod (nst nsd m.axiSymmetry) (C q.2) (subDiag nsd m.axiSymmetry (q.2.B.mulV (comps (vec.getD 0 []))) (getThermalStrain h q.2.X)) (q.2.B.mulV (comps (vec.getD (k + 1) [])))).sum := by
  induction ps using List.reverseRecOn with
  | nil => exact ⟨nrm, rfl, rfl, by simp⟩
  | append_singleton ps q ih =>
    rw [List.map_append] at hP
    obtain ⟨a, ha, hl, hs⟩ := ih (Points.tail (by simpa using hP)) (fun x hx => hd x (by simp [hx])) (fun x hx => hT x (by simp [hx]))
    have hq : q.2 ∈ ps.map Prod.snd ++ [q].map Prod.snd := by simp
    obtain ⟨_, c2, _, _, _⟩ := material m nsd hP.dim q.2 (hP.adm _ hq) (C q.2) (hP.mat _ hq)
    obtain ⟨s, r1, r2⟩ := recovered m h nsd hP.dim q.2 (hP.adm _ hq) (C q.2) (hP.mat _ hq) (q.2.B.mulV (comps (vec.getD 0 []))) (hT q (by simp))
    have hz : dualStrains (nst nsd m.axiSymmetry) n q.2.B vec = .ok ((List.range n).map fun k => if (vec.getD (k + 1) []).isEmpty then [] else
        (List.range (nst nsd m.axiSymmetry)).map fun i => q.2.B.mulV (comps (vec.getD (k + 1) [])) (i + 1)) := by
      unfold dualStrains
      rw [if_pos]
      intro i hi
      rcases hlen (i + 1) (by omega) with h | h
      · left; rw [h]; rfl
      · right; rw [h, (hP.size _ hq).2]
    have hpt : normPoint m h nsd twoPi n vec q.1 q.2 = .ok { q.1 with rows := nst nsd m.axiSymmetry, sh := (List.range (sigSize m nsd)).map (fun i => s (i + 1)), epsz := ((List.range n).map fun k => if (vec.getD (k + 1) []).isEmpty then [] else
        (List.range (nst nsd m.axiSymmetry)).map fun i => q.2.B.mulV (comps (vec.getD (k + 1) [])) (i + 1)), w := vol m.axiSymmetry twoPi q.2 } := by
      unfold normPoint
      rw [if_neg (by simpa using hv), if_neg, kinem_eq, r1, hz]
      · rfl
      · rintro ⟨h1, h2⟩
        rcases hlen 0 (by omega) with h | h
        · rw [h] at h1; exact h1 rfl
        · rw [h, (hP.size _ hq).2] at h2; exact h2 rfl
    obtain ⟨hd1, hd2⟩ := hd q (by simp)
    obtain ⟨d, hdd⟩ : ∃ d : Norms.Pt K, d = { q.1 with rows := nst nsd m.axiSymmetry, sh := (List.range (sigSize m nsd)).map (fun i => s (i + 1)), epsz := ((List.range n).map fun k => if (vec.getD (k + 1) []).isEmpty then [] else
        (List.range (nst nsd m.axiSymmetry)).map fun i => q.2.B.mulV (comps (vec.getD (k + 1) [])) (i + 1)), w := vol m.axiSymmetry twoPi q.2 } := ⟨_, rfl⟩
    rw [← hdd] at hpt
    have e1 : d.ana.isSome = ana := by rw [hdd]; exact hd1
    have e2 : d.epsz.length = n := by rw [hdd]; simp
    have e3 : (Norms.nonEmpty d.psol).length = np := by rw [hdd]; exact hd2
    obtain ⟨a', f1, f2, f3, _⟩ := Norms.C14_slots_partial false d a (by simp) (by rw [hl, hnrm, e1, e2, e3])
    refine ⟨a', ?_, by rw [f2, hl], ?_⟩
    · have h0 : elmNorm m h nsd twoPi n vec (ps ++ [q]) nrm = (elmNorm m h nsd twoPi n vec ps nrm).bind fun a => (normPoint m h nsd twoPi n vec q.1 q.2).bind fun d => Norms.elEvalInt false d a := by
        simp [elmNorm, List.foldl_append]
      rw [h0, ha, hpt]
      exact f1
    · rw [f3 _ (.ahw k) (by rw [e1, e2]; exact slot ana n k hk), hs, List.map_append, List.sum_append, add_assoc]
      congr 2
      simp only [value, Norms.fields, Norms.stress, Bool.false_eq_true, if_false, List.map_cons, List.map_nil, List.sum_cons, List.sum_nil, add_zero]
      rw [hdd]
      simp only [r2]
      have hg : (((List.range n).map fun k => if (vec.getD (k + 1) []).isEmpty then [] else (List.range (nst nsd m.axiSymmetry)).map fun i => q.2.B.mulV (comps (vec.getD (k + 1) [])) (i + 1)).getD k [] : List K)
          = if (vec.getD (k + 1) []).isEmpty then [] else (List.range (nst nsd m.axiSymmetry)).map fun i => q.2.B.mulV (comps (vec.getD (k + 1) [])) (i + 1) := by
        simp [List.getD_eq_getElem?_getD, hk]
      rw [hg, mul_comm]
      congr 1
      by_cases hw : vec.getD (k + 1) [] = []
      · rw [hw, comps_nil, mulV_zero]
        simp [dot, prod]
      · rw [if_neg (by simpa using hw), dot_range]
        simp only [prod, mulVec, c2]

/-- The points of an element for the load of the temperature. -/
def heatPoints (m : Mat K) (twoPi : K) (C : Pnt K → DMat K) (ps : List (Pnt K)) : List (GP K) := ps.map fun p => ⟨p.B.e, C p, p.X, vol m.axiSymmetry twoPi p⟩

theorem heat_load (m : Mat K) (h : Heat K) (nsd nd : Nat) (twoPi : K) (C : Pnt K → DMat K) (ps : List (Pnt K)) (hP : Points m nsd nd C ps) :
    ∃ f, elmLoad h 1 nsd m.axiSymmetry (heatPoints m twoPi C ps) = .ok f ∧ ∀ d, f d = (ps.map fun p => vol m.axiSymmetry twoPi p *
      ∑ k ∈ Finset.range (nst nsd m.axiSymmetry), p.B.e (k + 1) d * ∑ l ∈ Finset.range (nst nsd m.axiSymmetry), (C p).e (k + 1) (l + 1) * diag nsd m.axiSymmetry (getThermalStrain h p.X) (l + 1)).sum := by
  induction ps using List.reverseRecOn with
  | nil => exact ⟨_, rfl, by simp⟩
  | append_singleton ps p ih =>
    obtain ⟨f, h1, h2⟩ := ih hP.tail
    have hp : p ∈ ps ++ [p] := by simp
    obtain ⟨c1, c2, _, _, _⟩ := material m nsd hP.dim p (hP.adm p hp) (C p) (hP.mat p hp)
    have hs : elmLoad h 1 nsd m.axiSymmetry (heatPoints m twoPi C (ps ++ [p])) = formInitStrainForces h 1 f p.B.e (C p) nsd m.axiSymmetry p.X (vol m.axiSymmetry twoPi p) := by
      unfold heatPoints at h1 ⊢
      rw [List.map_append, List.map_cons, List.map_nil, elmLoad_snoc, h1]
      rfl
    rw [hs]
    by_cases ht : h.temp = none
    · refine ⟨f, (C97_load h 1 f p.B.e (C p) nsd m.axiSymmetry p.X _).1 (Or.inr ht), fun d => ?_⟩
      have h0 : getThermalStrain h p.X = 0 := by simp [getThermalStrain, ht]
      rw [h2 d, List.map_append, List.sum_append]
      simp [h0, diag]
    · obtain ⟨b, e1, e2⟩ := (C97_load h 1 f p.B.e (C p) nsd m.axiSymmetry p.X (vol m.axiSymmetry twoPi p)).2 (by decide) ht c2
      refine ⟨b, e1, fun d => ?_⟩
      rw [e2 d, h2 d, List.map_append, List.sum_append, c1, c2]
      simp [diag]

theorem work_eq (m : Mat K) (h : Heat K) (nsd nd : Nat) (twoPi : K) (C : Pnt K → DMat K) (ps : List (Pnt K)) (hP : Points m nsd nd C ps) (u w f : Nat → K)
    (hf : ∀ d, f d = (ps.map fun p => vol m.axiSymmetry twoPi p *
      ∑ k ∈ Finset.range (nst nsd m.axiSymmetry), p.B.e (k + 1) d * ∑ l ∈ Finset.range (nst nsd m.axiSymmetry), (C p).e (k + 1) (l + 1) * diag nsd m.axiSymmetry (getThermalStrain h p.X) (l + 1)).sum) :
    ∑ d ∈ Finset.range nd, w (d + 1) * ((stiff m nd twoPi C ps).mulV u (d + 1) - f (d + 1)) = (ps.map fun p => vol m.axiSymmetry twoPi p *
      prod (nst nsd m.axiSymmetry) (C p) (subDiag nsd m.axiSymmetry (p.B.mulV u) (getThermalStrain h p.X)) (p.B.mulV w)).sum := by
  have hsz : ∀ q ∈ ps.map (fun p => (p.B, C p, vol m.axiSymmetry twoPi p)), q.1.nr = nst nsd m.axiSymmetry ∧ q.1.nc = nd ∧ q.2.1.nc = nst nsd m.axiSymmetry := by
    intro q hq
    obtain ⟨p, hp, rfl⟩ := List.mem_map.1 hq
    obtain ⟨_, c2, _⟩ := material m nsd hP.dim p (hP.adm p hp) (C p) (hP.mat p hp)
    exact ⟨(hP.size p hp).1, (hP.size p hp).2, c2⟩
  simp only [stiff, fun d => stiffness_mulV nd (nst nsd m.axiSymmetry) _ hsz u d, List.map_map, hf]
  clear hsz hf
  have hnc : ∀ p ∈ ps, p.B.nc = nd := fun p hp => (hP.size p hp).2
  clear hP
  induction ps with
  | nil => simp
  | cons p ps ih =>
    have ih := ih fun q hq => hnc q (by simp [hq])
    simp only [List.map_cons, List.sum_cons]
    rw [← ih]
    have hp := hnc p (by simp)
    have e : vol m.axiSymmetry twoPi p * prod (nst nsd m.axiSymmetry) (C p) (subDiag nsd m.axiSymmetry (p.B.mulV u) (getThermalStrain h p.X)) (p.B.mulV w)
        = ∑ d ∈ Finset.range nd, w (d + 1) * ((∑ k ∈ Finset.range (nst nsd m.axiSymmetry), p.B.e (k + 1) (d + 1) * ((∑ l ∈ Finset.range (nst nsd m.axiSymmetry), (C p).e (k + 1) (l + 1) * p.B.mulV u (l + 1)) * vol m.axiSymmetry twoPi p))
          - vol m.axiSymmetry twoPi p * ∑ k ∈ Finset.range (nst nsd m.axiSymmetry), p.B.e (k + 1) (d + 1) * ∑ l ∈ Finset.range (nst nsd m.axiSymmetry), (C p).e (k + 1) (l + 1) * diag nsd m.axiSymmetry (getThermalStrain h p.X) (l + 1)) := by
      have e1 : ∀ k, ∑ l ∈ Finset.range (nst nsd m.axiSymmetry), (C p).e (k + 1) (l + 1) * subDiag nsd m.axiSymmetry (p.B.mulV u) (getThermalStrain h p.X) (l + 1)
          = (∑ l ∈ Finset.range (nst nsd m.axiSymmetry), (C p).e (k + 1) (l + 1) * p.B.mulV u (l + 1)) - ∑ l ∈ Finset.range (nst nsd m.axiSymmetry), (C p).e (k + 1) (l + 1) * diag nsd m.axiSymmetry (getThermalStrain h p.X) (l + 1) := by
        intro k
        rw [← Finset.sum_sub_distrib]
        refine Finset.sum_congr rfl fun l _ => ?_
        unfold subDiag diag
        split_ifs <;> ring
      unfold prod
      simp only [e1]
      have e2 : ∀ k, p.B.mulV w k = ∑ d ∈ Finset.range nd, p.B.e k (d + 1) * w (d + 1) := fun k => by simp [DMat.mulV, hp]
      generalize vol m.axiSymmetry twoPi p = v
      simp only [e2]
      have e3 : ∀ d, w (d + 1) * ((∑ k ∈ Finset.range (nst nsd m.axiSymmetry), p.B.e (k + 1) (d + 1) * ((∑ l ∈ Finset.range (nst nsd m.axiSymmetry), (C p).e (k + 1) (l + 1) * p.B.mulV u (l + 1)) * v))
          - v * ∑ k ∈ Finset.range (nst nsd m.axiSymmetry), p.B.e (k + 1) (d + 1) * ∑ l ∈ Finset.range (nst nsd m.axiSymmetry), (C p).e (k + 1) (l + 1) * diag nsd m.axiSymmetry (getThermalStrain h p.X) (l + 1))
          = ∑ k ∈ Finset.range (nst nsd m.axiSymmetry), v * (((∑ l ∈ Finset.range (nst nsd m.axiSymmetry), (C p).e (k + 1) (l + 1) * p.B.mulV u (l + 1)) - ∑ l ∈ Finset.range (nst nsd m.axiSymmetry), (C p).e (k + 1) (l + 1) * diag nsd m.axiSymmetry (getThermalStrain h p.X) (l + 1)) * (p.B.e (k + 1) (d + 1) * w (d + 1))) := by
        intro d
        rw [Finset.mul_sum, ← Finset.sum_sub_distrib, Finset.mul_sum]
        exact Finset.sum_congr rfl fun k _ => by ring
      simp only [e3]
      rw [Finset.sum_comm, Finset.mul_sum]
      refine Finset.sum_congr rfl fun k _ => ?_
      rw [Finset.mul_sum, Finset.mul_sum]
    rw [e, ← Finset.sum_add_distrib]
    refine Finset.sum_congr rfl fun d _ => ?_
    simp only [Function.comp_apply]
    ring

/-- **C125**: the value reported for an extraction function is, in each element, the work of the nodal forces of the element - stiffness times displacements minus the load of the temperature - on the
nodal values of the function; an element outside the domain of the function contributes nothing. So over all elements it is the work of the external loads and reactions on the function.
Missing: axial symmetry with a temperature for a material which is set to plane strain; see `C125_hoop_violated`. -/
theorem C125_quantity_partial (m : Mat K) (h : Heat K) (nsd nd : Nat) (twoPi : K) (n : Nat) (vec : List (List K)) (hv : vec ≠ []) (C : Pnt K → DMat K) (ana : Bool) (np : Nat)
    (ps : List (Norms.Pt K × Pnt K)) (hP : Points m nsd nd C (ps.map Prod.snd)) (hlen : ∀ i ≤ n, vec.getD i [] = [] ∨ (vec.getD i []).length = nd)
    (hd : ∀ q ∈ ps, q.1.ana.isSome = ana ∧ (Norms.nonEmpty q.1.psol).length = np)
    (hT : nsd = 2 → m.axiSymmetry = true → m.planeStress = false → ∀ q ∈ ps, getThermalStrain h q.2.X = 0)
    (nrm : List K) (hnrm : nrm.length = Norms.elNoFields ana n 1 + np * Norms.elNoFields ana n 2) (k : Nat) (hk : k < n) :
    ∃ f nrm', elmLoad h 1 nsd m.axiSymmetry (heatPoints m twoPi C (ps.map Prod.snd)) = .ok f ∧ elmNorm m h nsd twoPi n vec ps nrm = .ok nrm' ∧
      Norms.at' nrm' (if ana then 5 + 2 * k else 3 + k) = Norms.at' nrm (if ana then 5 + 2 * k else 3 + k) +
        ∑ d ∈ Finset.range nd, comps (vec.getD (k + 1) []) (d + 1) *
          ((∑ e ∈ Finset.range nd, (stiff m nd twoPi C (ps.map Prod.snd)).e (d + 1) (e + 1) * comps (vec.getD 0 []) (e + 1)) - f (d + 1)) := by
  obtain ⟨f, f1, f2⟩ := heat_load m h nsd nd twoPi C (ps.map Prod.snd) hP
  obtain ⟨nrm', n1, _, n2⟩ := norm_points m h nsd nd twoPi n vec hv C ana np ps hP hlen hd (fun q hq a b c => hT a b c q hq) nrm hnrm k hk
  refine ⟨f, nrm', f1, n1, ?_⟩
  have hnc : (stiff m nd twoPi C (ps.map Prod.snd)).nc = nd := (Cont.stiffness_dim nd _).2
  have := work_eq m h nsd nd twoPi C (ps.map Prod.snd) hP (comps (vec.getD 0 [])) (comps (vec.getD (k + 1) [])) f f2
  simp only [DMat.mulV, hnc] at this
  rw [n2, this, List.map_map]
  rfl

/-- **C125**: without temperature, the value reported for the function of the dual load is, in each element, the dual load times the displacements. Missing: strains of the function below the
tolerance, and a present solution during the assembly of elements outside the domain; see `C125_small_violated` and `C125_outside_violated`. -/
theorem C125_adjoint_partial (m : Mat K) (h : Heat K) (hh : h.temp = none) (nsd nd : Nat) (twoPi tol : K) (n : Nat) (hn : 0 < n) (u prev w : List K) (rest rest' : List (List K)) (C : Pnt K → DMat K)
    (ana : Bool) (np : Nat) (ps : List (Norms.Pt K × Pnt K)) (hP : Points m nsd nd C (ps.map Prod.snd)) (hlen : ∀ i ≤ n, (u :: w :: rest).getD i [] = [] ∨ ((u :: w :: rest).getD i []).length = nd)
    (hw : w = [] → prev = [])
    (hz : ∀ q ∈ ps, (∀ i < nst nsd m.axiSymmetry, q.2.B.mulV (comps w) (i + 1) = 0) ∨ ∃ i < nst nsd m.axiSymmetry, tol < |q.2.B.mulV (comps w) (i + 1)|)
    (hd : ∀ q ∈ ps, q.1.ana.isSome = ana ∧ (Norms.nonEmpty q.1.psol).length = np)
    (nrm : List K) (hnrm : nrm.length = Norms.elNoFields ana n 1 + np * Norms.elNoFields ana n 2) :
    ∃ b nrm', dualLoad m nsd twoPi tol 2 (prev :: w :: rest') (ps.map Prod.snd) = .ok b ∧ elmNorm m h nsd twoPi n (u :: w :: rest) ps nrm = .ok nrm' ∧
      Norms.at' nrm' (if ana then 5 else 3) = Norms.at' nrm (if ana then 5 else 3) + ∑ d ∈ Finset.range nd, b (d + 1) * comps u (d + 1) := by
  have h0 : ∀ X, getThermalStrain h X = 0 := fun X => by simp [getThermalStrain, hh]
  obtain ⟨b, b1, b2⟩ : ∃ b, dualLoad m nsd twoPi tol 2 (prev :: w :: rest') (ps.map Prod.snd) = .ok b ∧ ∀ d, b d = (stiff m nd twoPi C (ps.map Prod.snd)).mulV (comps w) d := by
    refine dual_of_strains m nsd nd twoPi tol prev w rest' C (comps w) (ps.map Prod.snd) hP (fun p hp => ?_) (fun p hp => ?_)
    · by_cases hw' : w = []
      · rw [hw', hw hw', comps_nil, mulV_zero]; simp [kinem]
      · simp [kinem, hw']
    · obtain ⟨q, hq, rfl⟩ := List.mem_map.1 hp
      exact hz q hq
  obtain ⟨nrm', n1, _, n2⟩ := norm_points m h nsd nd twoPi n (u :: w :: rest) (by simp) C ana np ps hP hlen hd (fun q hq _ _ _ => h0 _) nrm hnrm 0 hn
  refine ⟨b, nrm', b1, n1, ?_⟩
  have := work_eq m ⟨none, none, none, h.alpha⟩ nsd nd twoPi C (ps.map Prod.snd) hP (comps w) (comps u) (fun _ => 0) (fun d => by simp [getThermalStrain, diag, Function.comp_def])
  have e : ∀ (q : Pnt K) x, subDiag nsd m.axiSymmetry x (0 : K) = x := fun q x => by funext i; simp [subDiag]
  simp only [b2]
  have e1 : ∑ d ∈ Finset.range nd, (stiff m nd twoPi C (ps.map Prod.snd)).mulV (comps w) (d + 1) * comps u (d + 1) = ∑ d ∈ Finset.range nd, comps u (d + 1) * ((stiff m nd twoPi C (ps.map Prod.snd)).mulV (comps w) (d + 1) - 0) :=
    Finset.sum_congr rfl fun d _ => by ring
  rw [e1, this]
  simp only [Nat.mul_zero, Nat.add_zero] at n2
  rw [n2, List.map_map]
  congr 2
  refine List.map_congr_left fun q hq => ?_
  have hq' : q.2 ∈ ps.map Prod.snd := List.mem_map.2 ⟨q, hq, rfl⟩
  obtain ⟨_, _, c3, _⟩ := material m nsd hP.dim q.2 (hP.adm _ hq') (C q.2) (hP.mat _ hq')
  simp only [Function.comp_apply, h0, show getThermalStrain (⟨none, none, none, h.alpha⟩ : Heat K) q.2.X = 0 from rfl, e q.2]
  congr 1
  exact prod_comm _ _ c3 _ _

/-- Voigt position of a strain component. -/
def voigt (nsd i j : Nat) : Nat := if i = j then i else if nsd = 2 then 3 else if i + j = 3 then 4 else if i + j = 5 then 5 else 6

/-- The strains of the displacement `c x_j` in direction `i`. -/
theorem stretch (nsd nen : Nat) (hn : nsd = 2 ∨ nsd = 3) (dN B : DMat K) (hB : Cont.formB nsd dN = .ok B) (h1 : dN.nr = nen) (h2 : nsd ≤ dN.nc) (x : Nat → Nat → K)
    (hx : ∀ j k, 1 ≤ j → j ≤ nsd → 1 ≤ k → k ≤ nsd → ∑ a ∈ Finset.range nen, x (a + 1) j * dN.e (a + 1) k = if j = k then 1 else 0)
    (i j : Nat) (hi : 1 ≤ i ∧ i ≤ nsd) (hj : 1 ≤ j ∧ j ≤ nsd) (c : K) (w : Nat → K) (hw : ∀ a < nen, ∀ l < nsd, w (nsd * a + l + 1) = if l + 1 = i then c * x (a + 1) j else 0)
    (k : Nat) (hk : k < nsd * (nsd + 1) / 2) : B.mulV w (k + 1) = if k + 1 = voigt nsd i j then c else 0 := by
  obtain ⟨U, hU⟩ : ∃ U : Nat → Nat → K, U = fun a l => if l = i then c * x a j else 0 := ⟨_, rfl⟩
  have hmul : B.nc = nsd * nen → B.mulV w (k + 1) = Cont.strains B (dofVec nsd U) (k + 1) := by
    intro hnc
    unfold Cont.strains DMat.mulV
    refine Finset.sum_congr rfl fun d hd => ?_
    rw [hnc] at hd
    have hd := Finset.mem_range.1 hd
    have hpos : 0 < nsd := by omega
    have ha : d / nsd < nen := Nat.div_lt_of_lt_mul hd
    have := hw (d / nsd) ha (d % nsd) (Nat.mod_lt _ hpos)
    rw [Nat.div_add_mod] at this
    rw [this, hU]
    simp [dofVec]
  have hg : ∀ a b, 1 ≤ b → b ≤ nsd → ContSpec.grad dN.nr U dN.e a b = if a = i ∧ b = j then c else 0 := by
    intro a b hb1 hb2
    unfold ContSpec.grad
    rw [h1, hU]
    by_cases ha : a = i
    · subst ha
      have := hx j b hj.1 hj.2 hb1 hb2
      simp only [if_true, true_and]
      calc ∑ t ∈ Finset.range nen, c * x (t + 1) j * dN.e (t + 1) b = c * ∑ t ∈ Finset.range nen, x (t + 1) j * dN.e (t + 1) b := by
            rw [Finset.mul_sum]; exact Finset.sum_congr rfl fun t _ => by ring
        _ = _ := by rw [this]; by_cases hb : j = b <;> simp [hb, eq_comm]
    · simp [ha]
  rcases hn with rfl | rfl
  · obtain ⟨B', e1, _, e3, e4⟩ := Cont.C06_strain_2d dN h2
    rw [hB] at e1
    simp only [Res.ok.injEq] at e1
    subst e1
    rw [hmul (by rw [e3, h1]), e4 U (k + 1) (by omega) (by omega)]
    have g := hg
    obtain ⟨hi1, hi2⟩ := hi
    obtain ⟨hj1, hj2⟩ := hj
    have hk : k < 3 := hk
    interval_cases k <;> simp only [ContSpec.eng2, hg _ 1 (by omega) (by omega), hg _ 2 (by omega) (by omega)] <;> interval_cases i <;> interval_cases j <;> simp [voigt]
  · obtain ⟨B', e1, _, e3, e4⟩ := Cont.C06_strain_3d dN h2
    rw [hB] at e1
    simp only [Res.ok.injEq] at e1
    subst e1
    rw [hmul (by rw [e3, h1]), e4 U (k + 1) (by omega) (by omega)]
    obtain ⟨hi1, hi2⟩ := hi
    obtain ⟨hj1, hj2⟩ := hj
    have hk : k < 6 := hk
    interval_cases k <;> simp only [ContSpec.eng3, hg _ 1 (by omega) (by omega), hg _ 2 (by omega) (by omega), hg _ 3 (by omega) (by omega)] <;> interval_cases i <;> interval_cases j <;> simp [voigt]

/-- **C125**: with an extraction function which is the coordinate `x_j` in direction `i`, divided by the volume, the reported value is the mean value of the stress component `ij` which is
reported as the stress of the points, in two and three dimensions without axial symmetry. Here `x` are the nodal coordinates: their interpolation has the unit gradient. -/
theorem C125_mean (m : Mat K) (h : Heat K) (nsd nen : Nat) (hax : m.axiSymmetry = false) (twoPi c : K) (n : Nat) (vec : List (List K)) (hv : vec ≠ []) (C : Pnt K → DMat K) (ana : Bool) (np : Nat)
    (ps : List (Norms.Pt K × Pnt K)) (hP : Points m nsd (nsd * nen) C (ps.map Prod.snd)) (hlen : ∀ i ≤ n, vec.getD i [] = [] ∨ (vec.getD i []).length = nsd * nen)
    (hd : ∀ q ∈ ps, q.1.ana.isSome = ana ∧ (Norms.nonEmpty q.1.psol).length = np) (x : Nat → Nat → K)
    (hx : ∀ q ∈ ps, ∃ dN, Cont.formB nsd dN = .ok q.2.B ∧ dN.nr = nen ∧ nsd ≤ dN.nc ∧
      ∀ j k, 1 ≤ j → j ≤ nsd → 1 ≤ k → k ≤ nsd → ∑ a ∈ Finset.range nen, x (a + 1) j * dN.e (a + 1) k = if j = k then 1 else 0)
    (nrm : List K) (hnrm : nrm.length = Norms.elNoFields ana n 1 + np * Norms.elNoFields ana n 2) (k : Nat) (hk : k < n)
    (i j : Nat) (hi : 1 ≤ i ∧ i ≤ nsd) (hj : 1 ≤ j ∧ j ≤ nsd)
    (hw : ∀ a < nen, ∀ l < nsd, comps (vec.getD (k + 1) []) (nsd * a + l + 1) = if l + 1 = i then c * x (a + 1) j else 0)
    (S : Pnt K → Nat → K) (hS : ∀ q ∈ ps, recover m h nsd q.2.fe q.2.X (q.2.B.mulV (comps (vec.getD 0 []))) = .ok (S q.2)) :
    ∃ nrm', elmNorm m h nsd twoPi n vec ps nrm = .ok nrm' ∧
      Norms.at' nrm' (if ana then 5 + 2 * k else 3 + k) = Norms.at' nrm (if ana then 5 + 2 * k else 3 + k) +
        c * (ps.map fun q => q.2.w * S q.2 (if nsd = 2 ∧ i ≠ j then sigSize m 2 else voigt nsd i j)).sum := by
  obtain ⟨nrm', n1, _, n2⟩ := norm_points m h nsd (nsd * nen) twoPi n vec hv C ana np ps hP hlen hd (fun q hq _ h' _ => by rw [hax] at h'; simp at h') nrm hnrm k hk
  refine ⟨nrm', n1, ?_⟩
  rw [n2]
  congr 1
  rw [← List.sum_map_mul_left]
  congr 1
  refine List.map_congr_left fun q hq => ?_
  have hq' : q.2 ∈ ps.map Prod.snd := List.mem_map.2 ⟨q, hq, rfl⟩
  obtain ⟨_, c2, _, _, _⟩ := material m nsd hP.dim q.2 (hP.adm _ hq') (C q.2) (hP.mat _ hq')
  obtain ⟨s, r1, r2⟩ := recovered m h nsd hP.dim q.2 (hP.adm _ hq') (C q.2) (hP.mat _ hq') (q.2.B.mulV (comps (vec.getD 0 []))) (fun _ h' => by rw [hax] at h'; simp at h')
  rw [hS q hq] at r1
  simp only [Res.ok.injEq] at r1
  subst r1
  obtain ⟨dN, d1, d2, d3, d4⟩ := hx q hq
  have hnst : nst nsd m.axiSymmetry = nsd * (nsd + 1) / 2 := by simp [nst, hax]
  have hv1 : 1 ≤ voigt nsd i j ∧ voigt nsd i j ≤ nsd * (nsd + 1) / 2 := by
    rcases hP.dim with rfl | rfl
    · unfold voigt; split_ifs <;> omega
    · unfold voigt; split_ifs <;> omega
  have hp : prod (nst nsd m.axiSymmetry) (C q.2) (subDiag nsd m.axiSymmetry (q.2.B.mulV (comps (vec.getD 0 []))) (getThermalStrain h q.2.X)) (q.2.B.mulV (comps (vec.getD (k + 1) [])))
      = c * mulVec (C q.2) (subDiag nsd m.axiSymmetry (q.2.B.mulV (comps (vec.getD 0 []))) (getThermalStrain h q.2.X)) (voigt nsd i j) := by
    unfold prod
    rw [Finset.sum_eq_single (voigt nsd i j - 1)]
    · rw [stretch nsd nen hP.dim dN q.2.B d1 d2 d3 x d4 i j hi hj c _ hw _ (by omega), if_pos (by omega), Nat.sub_add_cancel hv1.1]
      simp only [mulVec, c2]
      ring
    · intro l hl hne
      have hl := Finset.mem_range.1 hl
      rw [stretch nsd nen hP.dim dN q.2.B d1 d2 d3 x d4 i j hi hj c _ hw l (by omega), if_neg (by omega), mul_zero]
    · intro hl
      exact absurd (Finset.mem_range.2 (by omega)) hl
  rw [hp]
  generalize mulVec (C q.2) (subDiag nsd m.axiSymmetry (q.2.B.mulV (comps (vec.getD 0 []))) (getThermalStrain h q.2.X)) = t at r2 ⊢
  have hvol : vol m.axiSymmetry twoPi q.2 = q.2.w := by simp [vol, hax]
  rw [hvol]
  have hfin : t (voigt nsd i j) = S q.2 (if nsd = 2 ∧ i ≠ j then sigSize m 2 else voigt nsd i j) := by
    obtain ⟨hi1, hi2⟩ := hi
    obtain ⟨hj1, hj2⟩ := hj
    rcases hP.dim with rfl | rfl
    · cases hps : m.planeStress
      · simp [sigSize, nst, hax, hps, Norms.dropZZ, List.range_succ] at r2 ⊢
        interval_cases i <;> interval_cases j <;> simp [voigt, r2]
      · simp [sigSize, nst, hax, hps, Norms.dropZZ, List.range_succ] at r2 ⊢
        interval_cases i <;> interval_cases j <;> simp [voigt, r2]
    · simp [sigSize, nst, Norms.dropZZ, List.range_succ] at r2 ⊢
      interval_cases i <;> interval_cases j <;> simp [voigt, r2]
  rw [hfin]
  ring

end

/-- The other data of a point for the norms, without analytical solution and projections. -/
def bare : Norms.Pt ℚ := { rows := 3, ci := id, sh := [], ana := none, epsz := [], fu := none, w := 0, psol := [], N := [], nrcmp := 3 }

/-- A reported value. -/
def normOf (r : Res (List ℚ)) (i : Nat) : Option ℚ :=
  match r with
  | .ok b => some (Norms.at' b i)
  | _ => none

theorem of_normOf {r : Res (List ℚ)} {i : Nat} {v : ℚ} (h : normOf r i = some v) : ∃ b, r = .ok b ∧ Norms.at' b i = v := by
  cases r with
  | ok b => exact ⟨b, rfl, by simpa [normOf] using h⟩
  | fail => simp [normOf] at h
  | ub => simp [normOf] at h

/-- A concrete case for the reported values: the corner of the plate under a stretch in the first direction, with the function `x` in the first direction. -/
example : (∃ C, Points plate 2 8 C ([(bare, corner)].map Prod.snd)) ∧ (∀ q ∈ [(bare, corner)], q.1.ana.isSome = false ∧ (Norms.nonEmpty q.1.psol).length = 0) ∧
    ([0, 0, 0, 0] : List ℚ).length = Norms.elNoFields false 1 1 + 0 * Norms.elNoFields false 1 2 ∧
    ∃ nrm', elmNorm plate ⟨none, none, none, 0⟩ 2 0 1 [[0, 0, 1, 0, 1, 0, 0, 0], [0, 0, 1, 0, 1, 0, 0, 0]] [(bare, corner)] [0, 0, 0, 0] = .ok nrm' ∧ Norms.at' nrm' 3 = 224 :=
  ⟨points_exist plate 2 8 (Or.inl rfl) [corner] (by simp [corner, cornerB, plate, nst]) (by simp only [List.mem_singleton, forall_eq]; norm_num [Admissible, nuAt, plate]),
    by simp [bare, Norms.nonEmpty], rfl, of_normOf (by decide +kernel)⟩

/-- Gradients with a strain-displacement matrix, and their moments with the nodal coordinates. -/
example : ∃ (dN B : DMat ℚ), Cont.formB 2 dN = .ok B ∧ dN.nr = 4 ∧ 2 ≤ dN.nc ∧ ∀ j k, 1 ≤ j → j ≤ 2 → 1 ≤ k → k ≤ 2 →
    ∑ a ∈ Finset.range 4, (([[0, 0], [1, 0], [1, 1], [0, 1]] : List (List ℚ)).getD a []).getD (j - 1) 0 * dN.e (a + 1) k = if j = k then 1 else 0 := by
  obtain ⟨dN, hd⟩ : ∃ dN : DMat ℚ, dN = ⟨4, 2, fun i j => ([[-1, -1], [1, 0], [0, 0], [0, 1]].getD (i - 1) []).getD (j - 1) 0⟩ := ⟨_, rfl⟩
  obtain ⟨B, h1, _⟩ := Cont.C06_strain_2d dN (by rw [hd])
  refine ⟨dN, B, h1, by rw [hd], by rw [hd], fun j k j1 j2 k1 k2 => ?_⟩
  subst hd
  interval_cases j <;> interval_cases k <;> simp [Finset.sum_range_succ]

/-- A ring of a triangle with corners `(1,0)`, `(2,0)` and `(1,1)`, at the first corner. -/
def ringPt : Pnt ℚ := ⟨⟨4, 6, fun i j => ([[-1, 0, 1, 0, 0, 0], [0, -1, 0, 0, 0, 1], [1, 0, 0, 0, 0, 0], [-1, -1, 0, 1, 1, 0]].getD (i - 1) []).getD (j - 1) 0⟩, ⟨0, 0, 0⟩, ⟨1, 0, 0⟩, 1⟩

def ring : Mat ℚ := { Emod := 210, nu := 1 / 4, axiSymmetry := true }

/-- **C125** does not hold for axial symmetry with a temperature, unless the material is set to plane stress: a ring which expands freely in a temperature of 10 is free of stress, and its nodal
forces are zero, but with the constant radial function the reported value is `-E α T` times the volume. -/
theorem C125_hoop_violated : ∃ C, Points ring 2 6 C [ringPt] ∧
    ∃ f nrm', elmLoad ⟨none, some fun _ => 10, none, 1 / 10⟩ 1 2 true (heatPoints ring 6 C [ringPt]) = .ok f ∧
      elmNorm ring ⟨none, some fun _ => 10, none, 1 / 10⟩ 2 6 1 [[1, 0, 2, 0, 1, 1], [1, 0, 1, 0, 1, 0]] [(bare, ringPt)] [0, 0, 0, 0] = .ok nrm' ∧ Norms.at' nrm' 3 = -(210 * 6) ∧
      ∑ d ∈ Finset.range 6, comps [1, 0, 1, 0, 1, 0] (d + 1) * ((∑ e ∈ Finset.range 6, (stiff ring 6 6 C [ringPt]).e (d + 1) (e + 1) * comps [1, 0, 2, 0, 1, 1] (e + 1)) - f (d + 1)) = 0 := by
  obtain ⟨C, hC⟩ := points_exist ring 2 6 (Or.inl rfl) [ringPt] (by simp [ringPt, ring, nst]) (by simp only [List.mem_singleton, forall_eq]; norm_num [Admissible, nuAt, ring])
  obtain ⟨f, f1, f2⟩ := heat_load ring ⟨none, some fun _ => 10, none, 1 / 10⟩ 2 6 6 C [ringPt] hC
  obtain ⟨nrm', n1, n2⟩ := of_normOf (r := elmNorm ring ⟨none, some fun _ => 10, none, 1 / 10⟩ 2 6 1 [[1, 0, 2, 0, 1, 1], [1, 0, 1, 0, 1, 0]] [(bare, ringPt)] [0, 0, 0, 0]) (i := 3) (v := -(210 * 6))
    (by decide +kernel)
  refine ⟨C, hC, f, nrm', f1, n1, n2, ?_⟩
  have := work_eq ring ⟨none, some fun _ => 10, none, 1 / 10⟩ 2 6 6 C [ringPt] hC (comps [1, 0, 2, 0, 1, 1]) (comps [1, 0, 1, 0, 1, 0]) f f2
  have hnc : (stiff ring 6 6 C [ringPt]).nc = 6 := (Cont.stiffness_dim 6 _).2
  simp only [DMat.mulV, hnc] at this
  rw [this]
  have h0 : ∀ l < 4, subDiag 2 true (ringPt.B.mulV (comps [1, 0, 2, 0, 1, 1])) (getThermalStrain ⟨none, some fun _ => 10, none, 1 / 10⟩ ringPt.X) (l + 1) = (0 : ℚ) := by decide +kernel
  have e : prod (nst 2 true) (C ringPt) (subDiag 2 true (ringPt.B.mulV (comps [1, 0, 2, 0, 1, 1])) (getThermalStrain ⟨none, some fun _ => 10, none, 1 / 10⟩ ringPt.X)) (ringPt.B.mulV (comps [1, 0, 1, 0, 1, 0])) = 0 := by
    unfold prod
    refine Finset.sum_eq_zero fun k _ => ?_
    rw [Finset.sum_eq_zero fun l hl => by rw [h0 l (by simpa [nst] using hl), mul_zero], zero_mul]
  simp only [List.map_cons, List.map_nil, List.sum_cons, List.sum_nil, add_zero]
  exact mul_eq_zero_of_right _ e

end Verif.Dual

/-
C110: the options of the nonlinear and of the shell program.
-/
import Mathlib.Tactic.Ring
import Mathlib.Algebra.Field.Rat
import Mathlib.Algebra.Order.Ring.Unbundled.Rat
import Verif.Model.Options

set_option linter.unusedSectionVars false
set_option linter.unusedSimpArgs false
set_option linter.unusedVariables false

namespace Verif.Options

/-! ### What a user writes -/

/-- An option with its values, as a user means it. -/
inductive Item
  | prec (v : Str)
  | ztol (v : Str)
  | dump (v : Str) (raw : Bool)
  | ignore (vs : List Str)
  | off (j : Fin 3) (v : Str)
  | free
  | stop (v : Str)
  | check
  | arclen
  | adap (suffix : Str)
  /-- An option of the libraries with its values. -/
  | lib (t : Str) (vs : List Str)
  /-- Anything else. -/
  | unknown (t : Str)

/-- The first argument. -/
def Item.head : Item → Str
  | .prec _ => "-outPrec".toList
  | .ztol _ => "-ztol".toList
  | .dump _ _ => "-dumpInc".toList
  | .ignore _ => "-ignore".toList
  | .off j _ => if j = 0 then "-vox".toList else if j = 1 then "-voy".toList else "-voz".toList
  | .free => "-free".toList
  | .stop _ => "-stopTime".toList
  | .check => "-check".toList
  | .arclen => "-arclen".toList
  | .adap s => "-adap".toList ++ s
  | .lib t _ => t
  | .unknown t => t

/-- The values. -/
def Item.vals : Item → List Str
  | .prec v => [v]
  | .ztol v => [v]
  | .dump v raw => if raw then [v, "raw".toList] else [v]
  | .ignore vs => vs
  | .off _ v => [v]
  | .free => []
  | .stop v => [v]
  | .check => []
  | .arclen => []
  | .adap _ => []
  | .lib _ vs => vs
  | .unknown _ => []

/-- The arguments written on the command line. -/
def render (l : List Item) : List Str := l.flatMap fun x => x.head :: x.vals

/-- The names of the options of the nonlinear program. -/
def namesNL : List Str :=
  ["-outPrec", "-ztol", "-dumpInc", "-ignore", "-vox", "-voy", "-voz", "-free", "-stopTime", "-check"].map String.toList

/-- The names of the options of the shell program, apart from `-adap` with any ending. -/
def namesSh : List Str := ["-outPrec", "-ztol", "-arclen", "-stopTime", "-check"].map String.toList

variable {S K : Type} [Field K]

/-- The item is understood in front of the arguments `next`, for the nonlinear program: library options are known as such, and the values of `-dumpInc` and `-ignore` are not followed by something that looks
like another value. -/
def OkNL (L : Lib S K) (next : List Str) : Item → Prop
  | .dump _ raw => raw = false → next.head? ≠ some "raw".toList
  | .ignore vs => (∀ v ∈ vs, digit0 v = true) ∧ ∀ t, next.head? = some t → digit0 t = false
  | .lib t vs => L.len t (vs ++ next) = some vs.length
  | .unknown _ => False
  | .arclen => False
  | .adap _ => False
  | _ => True

/-- The same for the shell program. -/
def OkSh (L : Lib S K) (next : List Str) : Item → Prop
  | .prec _ => True
  | .ztol _ => True
  | .stop _ => True
  | .check => True
  | .arclen => True
  | .adap s => L.len ("-adap".toList ++ s) next = none
  | .lib t vs => L.len t (vs ++ next) = some vs.length
  | _ => False

/-- An argument which is not an option: not known to the libraries, and not a name of the program. -/
def Foreign (L : Lib S K) (names : List Str) (pre : List Str) (next : List Str) (t : Str) : Prop :=
  L.len t next = none ∧ t ∉ names ∧ ∀ p ∈ pre, ¬ p <+: t

/-- All items are understood; unknown ones are allowed behind the input file. -/
def Wf (ok : List Str → Item → Prop) (foreign : List Str → Str → Prop) : List Item → List Str → Prop
  | [], _ => True
  | x :: l, tail => (match x with
      | .unknown t => foreign (render l ++ tail) t
      | x => ok (render l ++ tail) x) ∧ Wf ok foreign l tail

/-- What the libraries guarantee: the names of the program are not theirs, and the effect of an option depends on its own values only. -/
structure Lib.Good (L : Lib S K) (names : List Str) : Prop where
  own : ∀ t ∈ names, ∀ r, L.len t r = none
  eff : ∀ t vs next, L.len t (vs ++ next) = some vs.length → L.eff t (vs ++ next) = L.eff t vs

/-- The settings of the libraries after their options, in order. -/
def libs (L : Lib S K) (s : S) (l : List Item) : S :=
  (l.filterMap fun x => match x with
    | .lib t vs => some (t, vs)
    | _ => none).foldl (fun s p => L.eff p.1 p.2 s) s

/-- The last given value. -/
def lastOf {V : Type} (g : Item → Option V) (l : List Item) (d : V) : V := ((l.filterMap g).getLast?).getD d

/-! ### Proofs -/

/-- The effect of an item. -/
def eff (L : Lib S K) (o : Opt S K) : Item → Opt S K
  | .prec v => { o with outPrec := L.atoi v }
  | .ztol v => { o with ztol := L.atof v }
  | .dump v raw => { o with dtDump := if raw then L.atof v * (-1) else L.atof v }
  | .ignore vs => { o with ignored := o.ignored ++ vs.flatMap L.ints }
  | .off j v => { o with off := fun i => if i = j then L.atof v else o.off i }
  | .free => { o with free := true }
  | .stop v => { o with stopTime := L.atof v }
  | .check => { o with stopTime := -1 }
  | .arclen => { o with arclen := true }
  | .adap _ => { o with adaptiv := true }
  | .lib t vs => { o with lib := L.eff t vs o.lib }
  | .unknown _ => o

theorem countDigits_append (vs next : List Str) (h1 : ∀ v ∈ vs, digit0 v = true) (h2 : ∀ t, next.head? = some t → digit0 t = false) :
    countDigits (vs ++ next) = vs.length := by
  induction vs with
  | nil =>
    cases next with
    | nil => rfl
    | cons t l => simp [countDigits, h2 t rfl]
  | cons v l ih =>
    simp only [List.cons_append, countDigits, h1 v (by simp), if_true, List.length_cons]
    rw [ih (fun w hw => h1 w (by simp [hw]))]

theorem ne (a b : String) (h : a ≠ b) : a.toList ≠ b.toList := fun e => h (String.toList_inj.1 e)

theorem stepNL_item (L : Lib S K) (hL : L.Good namesNL) (x : Item) (next : List Str) (o : Opt S K) (h : OkNL L next x) :
    stepNL L x.head (x.vals ++ next) o = some (eff L o x, x.vals.length) := by
  have own : ∀ s : String, s.toList ∈ namesNL → ∀ r, L.len s.toList r = none := fun s hs r => hL.own _ hs r
  cases x with
  | prec v =>
    unfold Item.head
    rw [stepNL, own "-outPrec" (by simp [namesNL]), if_pos rfl]
    rfl
  | ztol v =>
    unfold Item.head
    rw [stepNL, own "-ztol" (by simp [namesNL]), if_neg (ne "-ztol" "-outPrec" (by simp)), if_pos rfl]
    rfl
  | dump v raw =>
    unfold Item.head
    rw [stepNL, own "-dumpInc" (by simp [namesNL]), if_neg (ne "-dumpInc" "-outPrec" (by simp)), if_neg (ne "-dumpInc" "-ztol" (by simp)), if_pos rfl]
    cases raw with
    | true => simp [Item.vals, eff, dumpInc]
    | false =>
      have h' := h rfl
      cases next with
      | nil => simp [Item.vals, eff, dumpInc]
      | cons t l =>
        have : t ≠ "raw".toList := fun e => h' (by rw [e]; rfl)
        simp only [Item.vals, eff, dumpInc, Bool.false_eq_true, if_false, List.cons_append, List.nil_append, if_neg this, List.length_cons, List.length_nil]
  | ignore vs =>
    unfold Item.head
    rw [stepNL, own "-ignore" (by simp [namesNL]), if_neg (ne "-ignore" "-outPrec" (by simp)), if_neg (ne "-ignore" "-ztol" (by simp)), if_neg (ne "-ignore" "-dumpInc" (by simp)), if_pos rfl]
    simp only [Item.vals, countDigits_append vs next h.1 h.2, List.take_left, eff]
  | off j v =>
    have e0 : ∀ j : Fin 3, j = 0 ∨ j = 1 ∨ j = 2 := by decide
    have d1 : (1 : Fin 3) ≠ 0 := by decide
    have d2 : (2 : Fin 3) ≠ 0 := by decide
    have d3 : (2 : Fin 3) ≠ 1 := by decide
    rcases e0 j with rfl | rfl | rfl
    · change stepNL L "-vox".toList _ _ = _
      rw [stepNL, own "-vox" (by simp [namesNL]), if_neg (ne "-vox" "-outPrec" (by simp)), if_neg (ne "-vox" "-ztol" (by simp)), if_neg (ne "-vox" "-dumpInc" (by simp)), if_neg (ne "-vox" "-ignore" (by simp)), if_pos rfl]
      rfl
    · change stepNL L "-voy".toList _ _ = _
      rw [stepNL, own "-voy" (by simp [namesNL]), if_neg (ne "-voy" "-outPrec" (by simp)), if_neg (ne "-voy" "-ztol" (by simp)), if_neg (ne "-voy" "-dumpInc" (by simp)), if_neg (ne "-voy" "-ignore" (by simp)), if_neg (ne "-voy" "-vox" (by simp)), if_pos rfl]
      rfl
    · change stepNL L "-voz".toList _ _ = _
      rw [stepNL, own "-voz" (by simp [namesNL]), if_neg (ne "-voz" "-outPrec" (by simp)), if_neg (ne "-voz" "-ztol" (by simp)), if_neg (ne "-voz" "-dumpInc" (by simp)), if_neg (ne "-voz" "-ignore" (by simp)), if_neg (ne "-voz" "-vox" (by simp)), if_neg (ne "-voz" "-voy" (by simp)), if_pos rfl]
      rfl
  | free =>
    unfold Item.head
    rw [stepNL, own "-free" (by simp [namesNL]), if_neg (ne "-free" "-outPrec" (by simp)), if_neg (ne "-free" "-ztol" (by simp)), if_neg (ne "-free" "-dumpInc" (by simp)), if_neg (ne "-free" "-ignore" (by simp)), if_neg (ne "-free" "-vox" (by simp)), if_neg (ne "-free" "-voy" (by simp)), if_neg (ne "-free" "-voz" (by simp)), if_pos rfl]
    rfl
  | stop v =>
    unfold Item.head
    rw [stepNL, own "-stopTime" (by simp [namesNL]), if_neg (ne "-stopTime" "-outPrec" (by simp)), if_neg (ne "-stopTime" "-ztol" (by simp)), if_neg (ne "-stopTime" "-dumpInc" (by simp)), if_neg (ne "-stopTime" "-ignore" (by simp)), if_neg (ne "-stopTime" "-vox" (by simp)), if_neg (ne "-stopTime" "-voy" (by simp)), if_neg (ne "-stopTime" "-voz" (by simp)), if_neg (ne "-stopTime" "-free" (by simp)), if_pos rfl]
    rfl
  | check =>
    unfold Item.head
    rw [stepNL, own "-check" (by simp [namesNL]), if_neg (ne "-check" "-outPrec" (by simp)), if_neg (ne "-check" "-ztol" (by simp)), if_neg (ne "-check" "-dumpInc" (by simp)), if_neg (ne "-check" "-ignore" (by simp)), if_neg (ne "-check" "-vox" (by simp)), if_neg (ne "-check" "-voy" (by simp)), if_neg (ne "-check" "-voz" (by simp)), if_neg (ne "-check" "-free" (by simp)), if_neg (ne "-check" "-stopTime" (by simp)), if_pos rfl]
    rfl
  | arclen => exact h.elim
  | adap s => exact h.elim
  | lib t vs =>
    have h' : L.len t (vs ++ next) = some vs.length := h
    unfold Item.head
    simp only [stepNL, Item.vals, h', eff, hL.eff t vs next h']
  | unknown t => exact h.elim

theorem stepNL_foreign (L : Lib S K) (t : Str) (next : List Str) (o : Opt S K) (h : Foreign L namesNL [] next t) : stepNL L t next o = none := by
  obtain ⟨h1, h2, -⟩ := h
  simp only [namesNL, List.map_cons, List.map_nil, List.mem_cons, List.not_mem_nil, or_false, not_or] at h2
  obtain ⟨a1, a2, a3, a4, a5, a6, a7, a8, a9, a10⟩ := h2
  simp only [stepNL, h1, if_neg a1, if_neg a2, if_neg a3, if_neg a4, if_neg a5, if_neg a6, if_neg a7, if_neg a8, if_neg a9, if_neg a10]

theorem stepSh_item (L : Lib S K) (hL : L.Good namesSh) (x : Item) (next : List Str) (o : Opt S K) (h : OkSh L next x) :
    stepSh L x.head (x.vals ++ next) o = some (eff L o x, x.vals.length) := by
  have own : ∀ s : String, s.toList ∈ namesSh → ∀ r, L.len s.toList r = none := fun s hs r => hL.own _ hs r
  have p1 : ¬ ("-adap".toList.isPrefixOf "-stopTime".toList) = true := by decide +kernel
  have p2 : ¬ ("-adap".toList.isPrefixOf "-check".toList) = true := by decide +kernel
  cases x with
  | prec v =>
    unfold Item.head
    rw [stepSh, own "-outPrec" (by simp [namesSh]), if_pos rfl]
    rfl
  | ztol v =>
    unfold Item.head
    rw [stepSh, own "-ztol" (by simp [namesSh]), if_neg (ne "-ztol" "-outPrec" (by simp)), if_pos rfl]
    rfl
  | stop v =>
    unfold Item.head
    rw [stepSh, own "-stopTime" (by simp [namesSh]), if_neg (ne "-stopTime" "-outPrec" (by simp)), if_neg (ne "-stopTime" "-ztol" (by simp)), if_neg (ne "-stopTime" "-arclen" (by simp)), if_neg p1, if_pos rfl]
    rfl
  | check =>
    unfold Item.head
    rw [stepSh, own "-check" (by simp [namesSh]), if_neg (ne "-check" "-outPrec" (by simp)), if_neg (ne "-check" "-ztol" (by simp)), if_neg (ne "-check" "-arclen" (by simp)), if_neg p2, if_neg (ne "-check" "-stopTime" (by simp)), if_pos rfl]
    rfl
  | arclen =>
    unfold Item.head
    rw [stepSh, own "-arclen" (by simp [namesSh]), if_neg (ne "-arclen" "-outPrec" (by simp)), if_neg (ne "-arclen" "-ztol" (by simp)), if_pos rfl]
    rfl
  | adap s =>
    have h' : L.len ("-adap".toList ++ s) next = none := h
    have hp : ("-adap".toList.isPrefixOf ("-adap".toList ++ s)) = true := List.isPrefixOf_iff_prefix.2 (List.prefix_append _ _)
    have hn : ∀ n : List Char, ¬ "-adap".toList <+: n → "-adap".toList ++ s ≠ n := fun n hn e => hn (e ▸ List.prefix_append _ _)
    have a1 := hn "-outPrec".toList (by decide +kernel)
    have a2 := hn "-ztol".toList (by decide +kernel)
    have a3 := hn "-arclen".toList (by decide +kernel)
    unfold Item.head
    rw [Item.vals, List.nil_append, stepSh, h']
    simp only []
    rw [if_neg a1, if_neg a2, if_neg a3, if_pos hp]
    rfl
  | lib t vs =>
    have h' : L.len t (vs ++ next) = some vs.length := h
    unfold Item.head
    simp only [stepSh, Item.vals, h', eff, hL.eff t vs next h']
  | unknown t => exact h.elim
  | dump v r => exact h.elim
  | ignore v => exact h.elim
  | off j v => exact h.elim
  | free => exact h.elim

theorem stepSh_foreign (L : Lib S K) (t : Str) (next : List Str) (o : Opt S K) (h : Foreign L namesSh ["-adap".toList] next t) : stepSh L t next o = none := by
  obtain ⟨h1, h2, h3⟩ := h
  simp only [namesSh, List.map_cons, List.map_nil, List.mem_cons, List.not_mem_nil, or_false, not_or] at h2
  obtain ⟨a1, a2, a3, a4, a5⟩ := h2
  have hp : ("-adap".toList.isPrefixOf t) = false := by
    rw [Bool.eq_false_iff]
    intro e
    exact h3 _ (by simp) (List.isPrefixOf_iff_prefix.1 e)
  simp only [stepSh, h1, if_neg a1, if_neg a2, if_neg a3, hp, Bool.false_eq_true, if_false, if_neg a4, if_neg a5]

/-- Positions from `n` on. -/
def pos (n : Nat) (l : List Str) : List (Nat × Str) := (l.zipIdx n).map fun p => (p.2, p.1)

theorem pos_snd (n : Nat) (l : List Str) : (pos n l).map Prod.snd = l := by simp [pos, Function.comp_def]

theorem pos_cons (n : Nat) (t : Str) (l : List Str) : pos n (t :: l) = (n, t) :: pos (n + 1) l := by simp [pos, List.zipIdx_cons]

theorem pos_drop (n : Nat) (a l : List Str) : (pos n (a ++ l)).drop a.length = pos (n + a.length) l := by
  induction a generalizing n with
  | nil => simp
  | cons x a ih =>
    rw [List.cons_append, pos_cons, List.length_cons, List.drop_succ_cons, ih]
    congr 1
    omega

theorem render_cons (x : Item) (l : List Item) : render (x :: l) = x.head :: (x.vals ++ render l) := by simp [render]

section loops
variable (L : Lib S K) (step : Str → List Str → Opt S K → Option (Opt S K × Nat)) (ok : List Str → Item → Prop) (foreign : List Str → Str → Prop)
variable (hs : ∀ x next o, ok next x → step x.head (x.vals ++ next) o = some (eff L o x, x.vals.length))
variable (hf : ∀ t next o, foreign next t → step t next o = none)
include hs hf

/-- The loop behind the input file. -/
theorem loop2_items (k : Nat) (l : List Item) (tail : List Str) (hw : Wf ok foreign l tail) (n : Nat) (o : Opt S K)
    (hk : k < n ∨ n + (render l).length ≤ k) :
    loop2 step k (pos n (render l ++ tail)) o = loop2 step k (pos (n + (render l).length) tail) (l.foldl (eff L) o) := by
  induction l generalizing n o with
  | nil => simp [render]
  | cons x l ih =>
    obtain ⟨h1, h2⟩ := hw
    have hlen : (render (x :: l)).length = 1 + x.vals.length + (render l).length := by rw [render_cons]; simp; omega
    rw [hlen] at hk ⊢
    have hne : n ≠ k := by omega
    rw [render_cons, List.cons_append, pos_cons, loop2, if_neg hne, pos_snd, List.append_assoc]
    have fin : ∀ o', loop2 step k (pos (n + 1 + x.vals.length) (render l ++ tail)) o' =
        loop2 step k (pos (n + (1 + x.vals.length + (render l).length)) tail) (l.foldl (eff L) o') := by
      intro o'
      rw [ih h2 _ _ (by omega)]
      congr 2
      omega
    by_cases hx : ∃ t, x = .unknown t
    · obtain ⟨t, rfl⟩ := hx
      rw [show step (Item.unknown t).head ((Item.unknown t).vals ++ (render l ++ tail)) o = none from hf _ _ o h1]
      have := fin o
      simp only [Item.vals, List.length_nil, List.nil_append, Nat.add_zero] at this ⊢
      rw [this]
      rfl
    · have h1' : ok (render l ++ tail) x := by
        cases x <;> first | exact h1 | exact absurd ⟨_, rfl⟩ hx
      rw [hs _ _ o h1']
      simp only
      rw [pos_drop, fin]
      rfl

end loops

/-- Only options, no unknown arguments. -/
def Known (l : List Item) : Prop := ∀ x ∈ l, ∀ t, x ≠ .unknown t

theorem loop1_items (L : Lib S K) (hL : L.Good namesNL) (all : List (Nat × Str)) (l : List Item) (hl : Known l) (tail : List Str)
    (hw : Wf (OkNL L) (Foreign L namesNL []) l tail) (n : Nat) (o : Opt S K) :
    loop1 L all (pos n (render l ++ tail)) o = loop1 L all (pos (n + (render l).length) tail) (l.foldl (eff L) o) := by
  induction l generalizing n o with
  | nil => simp [render]
  | cons x l ih =>
    obtain ⟨h1, h2⟩ := hw
    have hlen : (render (x :: l)).length = 1 + x.vals.length + (render l).length := by rw [render_cons]; simp; omega
    have h1' : OkNL L (render l ++ tail) x := by
      cases x <;> first | exact h1 | exact absurd rfl (hl _ List.mem_cons_self _)
    rw [hlen, render_cons, List.cons_append, pos_cons, loop1, pos_snd, List.append_assoc, stepNL_item L hL x _ o h1']
    simp only
    rw [pos_drop, ih (fun y hy => hl y (by simp [hy])) h2]
    simp only [List.foldl_cons]
    congr 2
    omega

theorem loopSh_items (L : Lib S K) (hL : L.Good namesSh) (l : List Item) (hl : Known l) (tail : List Str)
    (hw : Wf (OkSh L) (Foreign L namesSh ["-adap".toList]) l tail) (n : Nat) (o : Opt S K) :
    loopSh L (pos n (render l ++ tail)) o = loopSh L (pos (n + (render l).length) tail) (l.foldl (eff L) o) := by
  induction l generalizing n o with
  | nil => simp [render]
  | cons x l ih =>
    obtain ⟨h1, h2⟩ := hw
    have hlen : (render (x :: l)).length = 1 + x.vals.length + (render l).length := by rw [render_cons]; simp; omega
    have h1' : OkSh L (render l ++ tail) x := by
      cases x <;> first | exact h1 | exact absurd rfl (hl _ List.mem_cons_self _)
    rw [hlen, render_cons, List.cons_append, pos_cons, loopSh, pos_snd, List.append_assoc, stepSh_item L hL x _ o h1']
    simp only
    rw [pos_drop, ih (fun y hy => hl y (by simp [hy])) h2]
    simp only [List.foldl_cons]
    congr 2
    omega

/-! ### Fields of the settings -/

theorem fold_field {V : Type} (L : Lib S K) (f : Opt S K → V) (g : Item → Option V) (h : ∀ o x, f (eff L o x) = (g x).getD (f o)) (l : List Item) (o : Opt S K) :
    f (l.foldl (eff L) o) = lastOf g l (f o) := by
  induction l using List.reverseRecOn with
  | nil => rfl
  | append_singleton l x ih =>
    rw [List.foldl_append, List.foldl_cons, List.foldl_nil, h, ih]
    simp only [lastOf, List.filterMap_append]
    cases hg : g x with
    | none => simp [hg]
    | some v => simp [hg]

theorem lastOf_twice {V : Type} (g : Item → Option V) (A B : List Item) (d : V) : lastOf g (A ++ B) (lastOf g A d) = lastOf g (A ++ B) d := by
  simp only [lastOf, List.filterMap_append]
  cases h : (B.filterMap g).getLast? with
  | some v => simp [h]
  | none =>
    have hB : B.filterMap g = [] := List.getLast?_eq_none_iff.1 h
    rw [hB, List.append_nil]
    cases h2 : (A.filterMap g).getLast? with
    | some v => simp
    | none => simp

theorem fold_lib (L : Lib S K) (l : List Item) (o : Opt S K) : (l.foldl (eff L) o).lib = libs L o.lib l := by
  induction l generalizing o with
  | nil => rfl
  | cons x l ih =>
    rw [List.foldl_cons, ih]
    cases x <;> rfl

theorem fold_ignored (L : Lib S K) (l : List Item) (o : Opt S K) (p : Int) :
    p ∈ (l.foldl (eff L) o).ignored ↔ p ∈ o.ignored ∨ ∃ vs, Item.ignore vs ∈ l ∧ ∃ v ∈ vs, p ∈ L.ints v := by
  induction l generalizing o with
  | nil => simp
  | cons x l ih =>
    rw [List.foldl_cons, ih]
    cases x with
    | ignore vs =>
      simp only [eff, List.mem_append, List.mem_flatMap, List.mem_cons, Item.ignore.injEq]
      constructor
      · rintro ((h | h) | ⟨ws, h1, h2⟩)
        · exact .inl h
        · exact .inr ⟨vs, .inl rfl, h⟩
        · exact .inr ⟨ws, .inr h1, h2⟩
      · rintro (h | ⟨ws, rfl | h1, h2⟩)
        · exact .inl (.inl h)
        · exact .inl (.inr h2)
        · exact .inr ⟨ws, h1, h2⟩
    | _ => simp [eff]

theorem fold_free (L : Lib S K) (l : List Item) (o : Opt S K) : (l.foldl (eff L) o).free = true ↔ o.free = true ∨ Item.free ∈ l := by
  induction l generalizing o with
  | nil => simp
  | cons x l ih =>
    rw [List.foldl_cons, ih]
    cases x <;> simp [eff]

theorem fold_arclen (L : Lib S K) (l : List Item) (o : Opt S K) : (l.foldl (eff L) o).arclen = true ↔ o.arclen = true ∨ Item.arclen ∈ l := by
  induction l generalizing o with
  | nil => simp
  | cons x l ih =>
    rw [List.foldl_cons, ih]
    cases x <;> simp [eff]

theorem fold_adap (L : Lib S K) (l : List Item) (o : Opt S K) : (l.foldl (eff L) o).adaptiv = true ↔ o.adaptiv = true ∨ ∃ e, Item.adap e ∈ l := by
  induction l generalizing o with
  | nil => simp
  | cons x l ih =>
    rw [List.foldl_cons, ih]
    cases x with
    | adap e =>
      simp only [eff, true_or, true_iff]
      exact .inr ⟨e, by simp⟩
    | _ => simp [eff]

/-- What an option says about each setting. -/
def gPrec (L : Lib S K) : Item → Option Int
  | .prec v => some (L.atoi v)
  | _ => none

@[inherit_doc gPrec] def gTol (L : Lib S K) : Item → Option K
  | .ztol v => some (L.atof v)
  | _ => none

@[inherit_doc gPrec] def gDump (L : Lib S K) : Item → Option K
  | .dump v true => some (-L.atof v)
  | .dump v false => some (L.atof v)
  | _ => none

@[inherit_doc gPrec] def gStop (L : Lib S K) : Item → Option K
  | .stop v => some (L.atof v)
  | .check => some (-1)
  | _ => none

@[inherit_doc gPrec] def gOff (L : Lib S K) (j : Fin 3) : Item → Option K
  | .off i v => if i = j then some (L.atof v) else none
  | _ => none

theorem f_prec (L : Lib S K) (o : Opt S K) (x : Item) : (eff L o x).outPrec = (gPrec L x).getD o.outPrec := by cases x <;> rfl
theorem f_tol (L : Lib S K) (o : Opt S K) (x : Item) : (eff L o x).ztol = (gTol L x).getD o.ztol := by cases x <;> rfl
theorem f_stop (L : Lib S K) (o : Opt S K) (x : Item) : (eff L o x).stopTime = (gStop L x).getD o.stopTime := by cases x <;> rfl
theorem f_dump (L : Lib S K) (o : Opt S K) (x : Item) : (eff L o x).dtDump = (gDump L x).getD o.dtDump := by
  cases x with
  | dump v r => cases r <;> simp [eff, gDump]
  | _ => rfl
theorem f_off (L : Lib S K) (j : Fin 3) (o : Opt S K) (x : Item) : (eff L o x).off j = (gOff L j x).getD (o.off j) := by
  cases x with
  | off i v =>
    by_cases h : i = j
    · simp [eff, gOff, h]
    · simp [eff, gOff, h, Ne.symm h]
  | _ => rfl

/-- The settings that belong to a command line with the options `l`: those of the program are the last ones given, or the defaults. -/
structure Says (L : Lib S K) (l : List Item) (o : Opt S K) : Prop where
  prec : o.outPrec = lastOf (gPrec L) l 3
  tol : o.ztol = lastOf (gTol L) l (1 / 100000000)
  dump : o.dtDump = lastOf (gDump L) l 0
  stop : o.stopTime = lastOf (gStop L) l 0
  off : ∀ j, o.off j = lastOf (gOff L j) l 0
  ignored : ∀ p, p ∈ o.ignored ↔ ∃ vs, Item.ignore vs ∈ l ∧ ∃ v ∈ vs, p ∈ L.ints v
  free : o.free = true ↔ Item.free ∈ l
  arclen : o.arclen = true ↔ Item.arclen ∈ l
  adap : o.adaptiv = true ↔ ∃ e, Item.adap e ∈ l

theorem says_once (L : Lib S K) (s : S) (l : List Item) : Says L l (l.foldl (eff L) (init s)) where
  prec := fold_field L (fun o => o.outPrec) _ (f_prec L) _ _
  tol := fold_field L (fun o => o.ztol) _ (f_tol L) _ _
  dump := fold_field L (fun o => o.dtDump) _ (f_dump L) _ _
  stop := fold_field L (fun o => o.stopTime) _ (f_stop L) _ _
  off j := fold_field L (fun o => o.off j) _ (f_off L j) _ _
  ignored p := by rw [fold_ignored]; simp [init]
  free := by rw [fold_free]; simp [init]
  arclen := by rw [fold_arclen]; simp [init]
  adap := by rw [fold_adap]; simp [init]

theorem says_twice (L : Lib S K) (s s' : S) (A B : List Item) :
    Says L (A ++ B) ((A ++ B).foldl (eff L) { A.foldl (eff L) (init s) with lib := s' }) := by
  have hA := says_once L s A
  generalize A.foldl (eff L) (init s) = o at hA
  constructor
  · rw [fold_field L (fun o => o.outPrec) _ (f_prec L)]; simp only [hA.prec, lastOf_twice]
  · rw [fold_field L (fun o => o.ztol) _ (f_tol L)]; simp only [hA.tol, lastOf_twice]
  · rw [fold_field L (fun o => o.dtDump) _ (f_dump L)]; simp only [hA.dump, lastOf_twice]
  · rw [fold_field L (fun o => o.stopTime) _ (f_stop L)]; simp only [hA.stop, lastOf_twice]
  · intro j; rw [fold_field L (fun o => o.off j) _ (f_off L j)]; simp only [hA.off, lastOf_twice]
  · intro p
    rw [fold_ignored]
    constructor
    · rintro (h | h)
      · obtain ⟨vs, h1, h2⟩ := (hA.ignored p).1 h
        exact ⟨vs, List.mem_append_left _ h1, h2⟩
      · exact h
    · exact .inr
  · rw [fold_free, hA.free]; simp
  · rw [fold_arclen, hA.arclen]; simp
  · rw [fold_adap, hA.adap]
    constructor
    · rintro (⟨e, h⟩ | h)
      · exact ⟨e, List.mem_append_left _ h⟩
      · exact h
    · exact .inr

theorem number_pos (l : List Str) : number l = pos 0 l := rfl

/-- **C110**: in the nonlinear program each setting is the last one given on the command line, on either side of the input file, whatever other options and unknown arguments are there. Options of the
libraries are applied to what the input file says, so that they override it, even if they stand in front of it. -/
theorem C110_nonlinear (L : Lib S K) (hL : L.Good namesNL) (s s' : S) (A B : List Item) (f : Str) (hA : Known A)
    (wA : Wf (OkNL L) (Foreign L namesNL []) A (f :: render B)) (wB : Wf (OkNL L) (Foreign L namesNL []) B [])
    (hf : Foreign L namesNL [] (render B) f) (hx : isXinp f = true → L.readXML f (libs L s A) = some s') :
    ∃ o, scanNL L s (render A ++ f :: render B) = .run (render A).length o ∧ Says L (A ++ B) o ∧
      o.lib = if isXinp f then libs L s' (A ++ B) else libs L s (A ++ B) := by
  have e1 : scanNL L s (render A ++ f :: render B) = loop1 L (pos 0 (render A ++ f :: render B)) (pos (0 + (render A).length) (f :: render B)) (A.foldl (eff L) (init s)) := by
    rw [scanNL, number_pos]
    exact loop1_items L hL _ A hA _ wA 0 _
  have e2 : ∀ (m : Nat) (o : Opt S K), (render A).length < m → loop2 (stepNL L) (render A).length (pos m (render B)) o = B.foldl (eff L) o := by
    intro m o hm
    have := loop2_items L (stepNL L) (OkNL L) (Foreign L namesNL []) (fun x n o h => stepNL_item L hL x n o h) (fun t n o h => stepNL_foreign L t n o h) (render A).length B [] wB m o (.inl hm)
    rw [List.append_nil] at this
    rw [this]
    simp [pos, loop2]
  rw [e1, pos_cons, loop1, pos_snd, stepNL_foreign L f _ _ hf, Nat.zero_add]
  simp only
  cases hX : isXinp f with
  | false =>
    refine ⟨_, by rw [if_neg (by simp)], ?_, ?_⟩
    · rw [e2 _ _ (by omega), ← List.foldl_append]
      exact says_once L s (A ++ B)
    · rw [e2 _ _ (by omega), ← List.foldl_append, fold_lib]
      rfl
  | true =>
    rw [if_pos rfl, fold_lib, show (init s : Opt S K).lib = s from rfl, hx hX]
    refine ⟨_, rfl, ?_⟩
    have e3 : ∀ o : Opt S K, loop2 (stepNL L) (render A).length (pos 0 (render A ++ f :: render B)) o = (A ++ B).foldl (eff L) o := by
      intro o
      rw [loop2_items L (stepNL L) (OkNL L) (Foreign L namesNL []) (fun x n o h => stepNL_item L hL x n o h) (fun t n o h => stepNL_foreign L t n o h) (render A).length A _ wA 0 o (.inr (by omega)),
        pos_cons, loop2, if_pos (by omega), e2 _ _ (by omega), ← List.foldl_append]
    rw [e3]
    exact ⟨says_twice L s s' A B, by rw [fold_lib]; rfl⟩

/-- **C110**: the same in the shell program, whose command line is read once. -/
theorem C110_shell (L : Lib S K) (hL : L.Good namesSh) (s : S) (A B : List Item) (f : Str) (hA : Known A)
    (wA : Wf (OkSh L) (Foreign L namesSh ["-adap".toList]) A (f :: render B)) (wB : Wf (OkSh L) (Foreign L namesSh ["-adap".toList]) B [])
    (hf : Foreign L namesSh ["-adap".toList] (render B) f) :
    ∃ o, scanSh L s (render A ++ f :: render B) = .run (render A).length o ∧ Says L (A ++ B) o ∧ o.lib = libs L s (A ++ B) := by
  rw [scanSh, number_pos, loopSh_items L hL A hA _ wA 0, pos_cons, loopSh, pos_snd, stepSh_foreign L f _ _ hf, Nat.zero_add]
  refine ⟨_, rfl, ?_⟩
  have := loop2_items L (stepSh L) (OkSh L) (Foreign L namesSh ["-adap".toList]) (fun x n o h => stepSh_item L hL x n o h) (fun t n o h => stepSh_foreign L t n o h)
    (render A).length B [] wB ((render A).length + 1) (A.foldl (eff L) (init s)) (.inl (by omega))
  rw [List.append_nil] at this
  rw [this, ← List.foldl_append]
  simp only [pos, List.zipIdx_nil, List.map_nil, loop2]
  exact ⟨says_once L s (A ++ B), by rw [fold_lib]; rfl⟩

/-- **C110**: with options only the programs print how to use them, and a file that cannot be read ends the nonlinear program. -/
theorem C110_usage (L : Lib S K) (s : S) (A : List Item) (hA : Known A) :
    (L.Good namesNL → Wf (OkNL L) (Foreign L namesNL []) A [] → scanNL L s (render A) = .usage) ∧
    (L.Good namesSh → Wf (OkSh L) (Foreign L namesSh ["-adap".toList]) A [] → scanSh L s (render A) = .usage) ∧
    (∀ (f : Str) (next : List Str), L.Good namesNL → Wf (OkNL L) (Foreign L namesNL []) A (f :: next) → Foreign L namesNL [] next f → isXinp f = true →
      L.readXML f (libs L s A) = none → scanNL L s (render A ++ f :: next) = .error) := by
  refine ⟨fun hL w => ?_, fun hL w => ?_, fun f next hL w hf hX hr => ?_⟩
  · have := loop1_items L hL (pos 0 (render A)) A hA [] w 0 (init s)
    rw [List.append_nil] at this
    rw [scanNL, number_pos, this]
    simp [pos, loop1]
  · have := loopSh_items L hL A hA [] w 0 (init s)
    rw [List.append_nil] at this
    rw [scanSh, number_pos, this]
    simp [pos, loopSh]
  · rw [scanNL, number_pos, loop1_items L hL _ A hA _ w 0, pos_cons, loop1, pos_snd, stepNL_foreign L f _ _ hf]
    simp only
    rw [if_pos hX, fold_lib, show (init s : Opt S K).lib = s from rfl, hr]

/-- A library with one option `-lag`, and an input file with one setting. -/
def lib0 : Lib (List String) ℚ where
  len t _ := if t = "-lag".toList then some 0 else none
  eff t _ s := if t = "-lag".toList then s ++ ["lag"] else s
  readXML _ _ := some ["spline"]
  atof v := v.length
  atoi v := v.length
  ints v := [(v.length : Int)]

theorem lib0_NL : lib0.Good namesNL where
  own := by
    intro t ht r
    have : ∀ t ∈ namesNL, t ≠ "-lag".toList := by decide +kernel
    simp only [lib0, if_neg (this t ht)]
  eff t vs next h := rfl

theorem lib0_Sh : lib0.Good namesSh where
  own := by
    intro t ht r
    have : ∀ t ∈ namesSh, t ≠ "-lag".toList := by decide +kernel
    simp only [lib0, if_neg (this t ht)]
  eff t vs next h := rfl

theorem lib0_len (t : Str) (r : List Str) (h : t ≠ "-lag".toList) : lib0.len t r = none := if_neg h

theorem lib0_lag (r : List Str) : lib0.len "-lag".toList r = some 0 := by simp only [lib0, if_true]

/-- `-outPrec 12 -lag -ignore 2 7 model.xinp -outPrec 1 -foo` in the nonlinear program. -/
example : ∃ o, scanNL lib0 [] ["-outPrec".toList, "12".toList, "-lag".toList, "-ignore".toList, "2".toList, "7".toList, "model.xinp".toList, "-outPrec".toList, "1".toList, "-foo".toList] = .run 6 o ∧
    o.outPrec = 1 ∧ o.lib = ["spline", "lag"] ∧ o.free = false := by
  obtain ⟨o, h1, h2, h3⟩ := C110_nonlinear lib0 lib0_NL [] ["spline"] [.prec "12".toList, .lib "-lag".toList [], .ignore ["2".toList, "7".toList]] [.prec "1".toList, .unknown "-foo".toList] "model.xinp".toList
    (by intro x hx t; simp only [List.mem_cons, List.not_mem_nil, or_false] at hx; rcases hx with rfl | rfl | rfl <;> simp)
    ⟨trivial, lib0_lag _, ⟨by decide +kernel, by intro t ht; cases ht; decide +kernel⟩, trivial⟩
    ⟨trivial, ⟨lib0_len _ _ (by decide +kernel), by decide +kernel, by simp⟩, trivial⟩
    ⟨lib0_len _ _ (by decide +kernel), by decide +kernel, by simp⟩ (fun _ => rfl)
  refine ⟨o, h1, h2.prec.trans (by rfl), h3.trans ?_, ?_⟩
  · rw [if_pos (by decide +kernel)]
    simp [libs, lib0]
  · have := h2.free
    simpa using this

/-- `-adaptive shell.xinp -stopTime 12` in the shell program. -/
example : ∃ o, scanSh lib0 [] ["-adaptive".toList, "shell.xinp".toList, "-stopTime".toList, "12".toList] = .run 1 o ∧ o.adaptiv = true ∧ o.stopTime = 2 ∧ o.arclen = false := by
  obtain ⟨o, h1, h2, h3⟩ := C110_shell lib0 lib0_Sh [] [.adap "tive".toList] [.stop "12".toList] "shell.xinp".toList
    (by intro x hx t; simp only [List.mem_cons, List.not_mem_nil, or_false] at hx; subst hx; simp)
    ⟨lib0_len _ _ (by decide +kernel), trivial⟩ ⟨trivial, trivial⟩ ⟨lib0_len _ _ (by decide +kernel), by decide +kernel, by decide +kernel⟩
  refine ⟨o, h1, h2.adap.2 ⟨_, List.mem_cons_self⟩, h2.stop.trans (by rfl), ?_⟩
  have := h2.arclen
  simpa using this

/-- `-check` alone. -/
example : scanNL lib0 [] ["-check".toList] = .usage :=
  (C110_usage lib0 [] [.check] (by intro x hx t; simp only [List.mem_cons, List.not_mem_nil, or_false] at hx; subst hx; simp)).1 lib0_NL ⟨trivial, trivial⟩

/-- **C110** does not hold for an input file whose name starts with a digit behind `-ignore`: it is taken as a patch number, and for a misspelled option in front of the input file: that one is taken as
the input file. -/
theorem C110_file_violated :
    scanNL lib0 [] ["-ignore".toList, "2".toList, "3plates.xinp".toList] = .usage ∧
    (∃ o, scanNL lib0 [] ["-freee".toList, "model.inp".toList] = .run 0 o) ∧
    (∃ o, scanSh lib0 [] ["-arclength".toList, "model.inp".toList] = .run 0 o) := by
  have h := stepNL_item lib0 lib0_NL (.ignore ["2".toList, "3plates.xinp".toList]) [] (init []) ⟨by decide +kernel, by simp⟩
  refine ⟨?_, ?_, ?_⟩
  · have h' : stepNL lib0 "-ignore".toList ["2".toList, "3plates.xinp".toList] (init []) = some (_, 2) := h
    rw [scanNL]
    conv_lhs => rw [number_pos ["-ignore".toList, "2".toList, "3plates.xinp".toList]]
    rw [pos_cons, loop1, pos_snd, h']
    simp [pos, loop1]
  · rw [scanNL, number_pos, pos_cons, loop1, pos_snd, stepNL_foreign lib0 _ _ _ ⟨lib0_len _ _ (by decide +kernel), by decide +kernel, by simp⟩]
    have : isXinp "-freee".toList = false := by decide +kernel
    simp only [this]
    exact ⟨_, rfl⟩
  · rw [scanSh, number_pos, pos_cons, loopSh, pos_snd, stepSh_foreign lib0 _ _ _ ⟨lib0_len _ _ (by decide +kernel), by decide +kernel, by decide +kernel⟩]
    exact ⟨_, rfl⟩

/-! ### Derived settings -/

/-- **C110** (partial): the number of digits asked for is used, unless it is 3. -/
theorem C110_precision_partial (n : Int) (dynamic : Bool) : (n ≠ 3 → precisionNL n dynamic = n) ∧ precisionNL n false = n := by
  constructor
  · intro h; simp [precisionNL, h]
  · simp [precisionNL]

example : precisionNL 7 true = 7 ∧ precisionNL 3 false = 3 := by decide

/-- **C110** does not hold for `-outPrec 3` in dynamic and arc-length simulations: it is taken as if it were not given. -/
theorem C110_precision_violated : precisionNL 3 true = 0 := by decide

/-- **C110**: an adaptive run uses the refinable discretization, also if asked for by `-adap` with the default one, and the discretization is changed in no other case. For the other discretizations the
nonlinear program drops the adaptivity. -/
theorem C110_adaptive (d : Disc) (adap : Bool) :
    ((discNL d adap).2 = true ↔ adap = true ∧ (d = .spline ∨ d = .lrSpline)) ∧
    ((discNL d adap).2 = true → (discNL d adap).1 = .lrSpline) ∧
    ((discNL d adap).2 = false → (discNL d adap).1 = d) ∧
    ((discSh d adap).2 = adap) ∧ ((discSh d adap).1 = .lrSpline ↔ adap = true ∨ d = .lrSpline) ∧ ((discSh d adap).1 ≠ .lrSpline → (discSh d adap).1 = .splineC1) := by
  cases d <;> cases adap <;> decide

example : discNL .spline true = (.lrSpline, true) ∧ discNL .splineC1 true = (.splineC1, false) ∧ discSh .lagrange false = (.splineC1, false) := by decide

/-- **C110**: what is written to the data base: the primary solution whenever there is one, and the secondary results exactly once, projected if there is a projection; nothing is written for Lagrange and
spectral elements. -/
theorem C110_fields (d : Disc) (file proj pSolOnly nodeMap norms active dynamic : Bool) :
    (hdf5 d file proj pSolOnly nodeMap norms active dynamic).Nodup ∧
    (hdf5 d file proj pSolOnly nodeMap norms active dynamic = [] ↔ file = false ∨ d = .lagrange ∨ d = .spectral) ∧
    (hdf5 d file proj pSolOnly nodeMap norms active dynamic ≠ [] →
      (hdf5 d file proj pSolOnly nodeMap norms active dynamic).head? = some .primary ∧
      (.projected ∈ hdf5 d file proj pSolOnly nodeMap norms active dynamic ↔ proj = true) ∧
      (.secondary ∈ hdf5 d file proj pSolOnly nodeMap norms active dynamic ↔ proj = false ∧ pSolOnly = false) ∧
      (.nodeMap ∈ hdf5 d file proj pSolOnly nodeMap norms active dynamic ↔ nodeMap = true) ∧
      (.norms ∈ hdf5 d file proj pSolOnly nodeMap norms active dynamic ↔ norms = true) ∧
      (.elementMask ∈ hdf5 d file proj pSolOnly nodeMap norms active dynamic ↔ active = true) ∧
      (.velocity ∈ hdf5 d file proj pSolOnly nodeMap norms active dynamic ↔ dynamic = true) ∧
      (.acceleration ∈ hdf5 d file proj pSolOnly nodeMap norms active dynamic ↔ dynamic = true)) := by
  cases file
  · simp [hdf5]
  cases d <;> first
    | simp [hdf5, Disc.belowSpline]; done
    | (refine ⟨?_, by simp [hdf5, Disc.belowSpline], fun _ => ?_⟩
       · simp only [hdf5, Disc.belowSpline]
         revert proj pSolOnly nodeMap norms active dynamic
         decide +kernel
       · simp [hdf5, Disc.belowSpline])

example : hdf5 .spline true true false true false false true = [.primary, .nodeMap, .velocity, .acceleration, .projected] := by decide

theorem lastDot_append (b e : Str) (he : '.' ∉ e) : lastDot (b ++ '.' :: e) = some b.length := by
  have h0 : ∀ e : Str, '.' ∉ e → lastDot e = none := by
    intro e he
    induction e with
    | nil => rfl
    | cons c r ih =>
      simp only [List.mem_cons, not_or] at he
      simp [lastDot, ih he.2, Ne.symm he.1]
  induction b with
  | nil => simp [lastDot, h0 e he]
  | cons c r ih => simp [lastDot, ih]

/-- **C110** (partial): the restart file is named after the result data base, otherwise after the input file without its extension. -/
theorem C110_restart_partial (b e h : Str) (he : '.' ∉ e) :
    restartName (b ++ '.' :: e) [] = .ok (b ++ "_restart".toList) ∧ (h ≠ [] → ∀ f, restartName f h = .ok (h ++ "_restart".toList)) := by
  constructor
  · simp [restartName, lastDot_append b e he]
  · intro hh f
    simp [restartName, hh]

example : restartName "runs.2/cube.xinp".toList [] = .ok "runs.2/cube_restart".toList := by decide +kernel

/-- **C110** does not hold for input files without an extension: the program ends with an exception, or all files in the parent directory get the same restart file. -/
theorem C110_restart_violated : restartName "cube".toList [] = .fail ∧ restartName "../cube".toList [] = .ok "._restart".toList ∧
    restartName "../plate".toList [] = .ok "._restart".toList := by decide +kernel

theorem tokenEnd_plain (b e : Str) (hb : '.' ∉ b) (h0 : b ≠ []) : tokenEnd (b ++ '.' :: e) = some b.length := by
  cases b with
  | nil => exact absurd rfl h0
  | cons c r =>
    have hc : c ≠ '.' := fun h => hb (by simp [h])
    have key : ∀ b : Str, '.' ∉ b → (b ++ '.' :: e).takeWhile (· ≠ '.') = b := by
      intro b hb
      induction b with
      | nil => simp
      | cons a l ih =>
        simp only [List.mem_cons, not_or] at hb
        simp only [List.cons_append, List.takeWhile_cons, ih hb.2]
        simp [Ne.symm hb.1]
    have h1 : ((c :: r) ++ '.' :: e).takeWhile (· = '.') = [] := by simp [hc]
    simp only [tokenEnd, h1, List.length_nil, List.drop_zero, key _ hb, Nat.zero_add]
    rw [if_neg (by simp)]

/-- **C110** (partial): with raw dumps the geometry, and the solution unless only a model check is asked for, are written to files named after the input file, for names with one dot and an extension of at
least three characters. -/
theorem C110_dump_partial [LinearOrder K] (dt stop : K) (b e : Str) (hb : '.' ∉ b) (h0 : b ≠ []) (he : 3 ≤ e.length) :
    dumpFiles dt stop (b ++ '.' :: e) = .ok (if dt < 0 then (if stop < 0 then [b ++ ".g2".toList] else [b ++ ".g2".toList, b ++ ".sol".toList]) else []) := by
  by_cases h1 : dt < 0
  · have e1 : replaceExt (b ++ '.' :: e).length (b ++ '.' :: e) ".g2".toList = .ok (b ++ ".g2".toList) := by
      simp only [replaceExt, tokenEnd_plain b e hb h0]
      rw [if_pos (by simp; omega)]
      simp
    have e2 : replaceExt (b ++ '.' :: e).length (b ++ ".g2".toList) ".sol".toList = .ok (b ++ ".sol".toList) := by
      have : b ++ ".g2".toList = b ++ '.' :: "g2".toList := by simp
      rw [this]
      simp only [replaceExt, tokenEnd_plain b _ hb h0]
      rw [if_pos (by simp; omega)]
      simp
    by_cases h2 : stop < 0
    · simp only [dumpFiles, dumps, h1, h2, decide_true, Bool.not_true, Bool.and_false, Bool.false_eq_true, if_true, if_false, e1, Res.bind]
    · simp only [dumpFiles, dumps, h1, h2, decide_true, decide_false, Bool.not_false, Bool.and_self, if_true, if_false, e1, e2, Res.bind]
  · simp [dumpFiles, dumps, h1]

example : dumpFiles (-1 : ℚ) 0 "cube.xinp".toList = .ok ["cube.g2".toList, "cube.sol".toList] := by decide +kernel

/-- **C110** does not hold for other input files: without an extension, or with one of less than three characters, memory behind the name is overwritten, and with a dot in the name of a directory the files are written
elsewhere. -/
theorem C110_dump_violated : dumpFiles (-1 : ℚ) 0 "cube".toList = .ub ∧ dumpFiles (-1 : ℚ) 0 "cube.in".toList = .ub ∧
    dumpFiles (-1 : ℚ) 0 "runs.2/cube.xinp".toList = .ok ["runs.g2".toList, "runs.sol".toList] := by decide +kernel

end Verif.Options

/-
Property C93: output files are named after the input file.
-/
import Mathlib.Data.List.Basic
import Mathlib.Data.List.Nodup
import Mathlib.Data.List.TakeWhile
import Mathlib.Data.Nat.Digits.Defs
import Verif.Model.FileNames

set_option linter.unusedSectionVars false
set_option linter.unusedSimpArgs false
set_option linter.unusedVariables false

namespace Verif.FileNames

theorem takeWhile_dot (d s : List Char) (hd : ∀ c ∈ d, c = '.') (hs : s.head? ≠ some '.') : (d ++ s).takeWhile (fun c => decide (c = '.')) = d := by
  induction d with
  | nil => cases s with
    | nil => rfl
    | cons c s => simp at hs; simp [hs]
  | cons c d ih =>
    have := hd c (by simp)
    simp [this, ih fun c hc => hd c (by simp [hc])]

theorem takeWhile_stem (s r : List Char) (hs : '.' ∉ s) (hr : r = [] ∨ r.head? = some '.') : (s ++ r).takeWhile (fun c => decide (c ≠ '.')) = s := by
  induction s with
  | nil => rcases hr with rfl | hr
           · rfl
           · cases r with
             | nil => rfl
             | cons c r => simp at hr; simp [hr]
  | cons c s ih =>
    simp only [List.mem_cons, not_or] at hs
    have h1 : c ≠ '.' := fun h => hs.1 h.symm
    rw [List.cons_append, List.takeWhile_cons_of_pos (by simpa using h1), ih hs.2]

theorem head_stem (s r : List Char) (hs : '.' ∉ s) (h0 : s ≠ []) : (s ++ r).head? ≠ some '.' := by
  cases s with
  | nil => exact absurd rfl h0
  | cons c s => simp at hs ⊢; exact fun h => hs.1 h.symm

theorem rename_eq (d s r ext : List Char) (cap : Nat) (hd : ∀ c ∈ d, c = '.') (h0 : s ≠ []) (hs : '.' ∉ s) (hr : r = [] ∨ r.head? = some '.') :
    rename ⟨d ++ s ++ r, cap⟩ ext =
      if d.length + s.length + ext.length ≤ cap then .ok (s ++ ext, ⟨d ++ s ++ ext, cap⟩) else .ub := by
  have e1 : (d ++ s ++ r).takeWhile (fun c => decide (c = '.')) = d := by
    rw [List.append_assoc]; exact takeWhile_dot d (s ++ r) hd (head_stem s r hs h0)
  have e2 : (d ++ s ++ r).drop d.length = s ++ r := by rw [List.append_assoc]; simp
  have e3 : (s ++ r).takeWhile (fun c => decide (c ≠ '.')) = s := takeWhile_stem s r hs hr
  have e4 : (d ++ s ++ r).take (d.length + s.length) = d ++ s := by
    rw [← List.length_append, List.take_left]
  unfold rename strtok
  simp only [e1, e2, e3, if_neg h0, e4, strcat, List.length_append]
  split_ifs
  · simp [Res.bind, List.drop_append, List.append_assoc]
  · rfl

/-- An extension: a dot and no further ones. -/
def IsExt (e : List Char) : Prop := ∃ x, e = '.' :: x ∧ '.' ∉ x

/-- **C93** (partial): for an input file whose path has exactly one dot, not in front, the linear program writes the dump files to the path of the input file with the extension exchanged,
and prints these names, provided that the new extensions are not longer than the old one. -/
theorem C93_dump_partial (stem x : List Char) (h0 : stem ≠ []) (hs : '.' ∉ stem) (exts : List (List Char)) (he : ∀ e ∈ exts, IsExt e ∧ e.length ≤ x.length + 1) :
    dumpLinear exts (argument (stem ++ '.' :: x)) = .ok (exts.map fun e => (stem ++ e, stem ++ e)) := by
  suffices h : ∀ (exts : List (List Char)) (r : List Char) (cap : Nat), (∀ e ∈ exts, IsExt e ∧ stem.length + e.length ≤ cap) → (r = [] ∨ r.head? = some '.') →
      dumpLinear exts ⟨stem ++ r, cap⟩ = .ok (exts.map fun e => (stem ++ e, stem ++ e)) by
    refine h exts ('.' :: x) _ (fun e hm => ⟨(he e hm).1, ?_⟩) (Or.inr rfl)
    have := (he e hm).2
    simp; omega
  intro exts
  induction exts with
  | nil => intro r cap _ _; rfl
  | cons e es ih =>
    intro r cap h hr
    have he := h e (by simp)
    have hren := rename_eq [] stem r e cap (by simp) h0 hs hr
    simp only [List.nil_append, List.length_nil, Nat.zero_add, if_pos he.2] at hren
    have hdot : e.head? = some '.' := by obtain ⟨y, hy, _⟩ := he.1; rw [hy]; rfl
    have := ih e cap (fun e hm => h e (by simp [hm])) (Or.inr hdot)
    simp only [dumpLinear, hren, Res.bind, this, List.map_cons]

example : ("model".toList ≠ [] ∧ '.' ∉ "model".toList) ∧ ∀ e ∈ [".g2".toList, ".dis".toList, ".sol".toList, ".eig".toList, ".m".toList],
    IsExt e ∧ e.length ≤ "xinp".toList.length + 1 := by
  refine ⟨by decide, fun e he => ?_⟩
  simp only [List.mem_cons, List.not_mem_nil, or_false] at he
  rcases he with rfl | rfl | rfl | rfl | rfl
  · exact ⟨⟨"g2".toList, by decide, by decide⟩, by decide⟩
  · exact ⟨⟨"dis".toList, by decide, by decide⟩, by decide⟩
  · exact ⟨⟨"sol".toList, by decide, by decide⟩, by decide⟩
  · exact ⟨⟨"eig".toList, by decide, by decide⟩, by decide⟩
  · exact ⟨⟨"m".toList, by decide, by decide⟩, by decide⟩

/-- **C93** does not hold for input files given with a leading `./`: the linear program writes to the root directory, while it prints the name in the current directory. -/
theorem C93_dump_dir_violated (stem x ext : List Char) (hs : '.' ∉ stem) (he : ext.length ≤ x.length + 1) :
    dumpLinear [ext] (argument ("./".toList ++ stem ++ '.' :: x)) = .ok [('/' :: stem ++ ext, "./".toList ++ stem ++ ext)] := by
  have h := rename_eq ['.'] ('/' :: stem) ('.' :: x) ext ("./".toList ++ stem ++ '.' :: x).length (by simp) (by simp) (by simpa using hs) (Or.inr rfl)
  have e : (⟨['.'] ++ '/' :: stem ++ '.' :: x, ("./".toList ++ stem ++ '.' :: x).length⟩ : Buf) = argument ("./".toList ++ stem ++ '.' :: x) := rfl
  rw [e, if_pos (by simp; omega)] at h
  simp only [dumpLinear, h, Res.bind]
  rfl

example : dumpLinear [".g2".toList] (argument "./model.xinp".toList) = .ok [("/model.g2".toList, "./model.g2".toList)] := by decide +kernel

/-- **C93** does not hold for directories with a dot in their name: the file is named after a part of the directory. -/
theorem C93_dump_dot_violated (d f x ext : List Char) (h0 : d ≠ []) (hs : '.' ∉ d) (he : ext.length ≤ f.length + 1 + x.length) :
    dumpLinear [ext] (argument (d ++ '.' :: f ++ x)) = .ok [(d ++ ext, d ++ ext)] := by
  have h := rename_eq [] d ('.' :: f ++ x) ext (d ++ '.' :: f ++ x).length (by simp) h0 hs (Or.inr rfl)
  rw [if_pos (by simp; omega)] at h
  have e : (⟨[] ++ d ++ ('.' :: f ++ x), (d ++ '.' :: f ++ x).length⟩ : Buf) = argument (d ++ '.' :: f ++ x) := by simp [argument]
  rw [e] at h
  simp only [dumpLinear, h, Res.bind]
  rfl

example : dumpLinear [".g2".toList] (argument "v1.2/model.xinp".toList) = .ok [("v1.g2".toList, "v1.g2".toList)] := by decide +kernel

/-- **C93** does not hold for input files without an extension, or with one shorter than that of the dump file: the program writes behind the end of the file name. -/
theorem C93_dump_length_violated (stem r ext : List Char) (h0 : stem ≠ []) (hs : '.' ∉ stem) (hr : r = [] ∨ r.head? = some '.') (he : r.length < ext.length)
    (es : List (List Char)) : dumpLinear (ext :: es) (argument (stem ++ r)) = .ub ∧ dumpNonlinear (ext :: es) (argument (stem ++ r)) = .ub := by
  have h := rename_eq [] stem r ext (stem ++ r).length (by simp) h0 hs hr
  rw [if_neg (by simp; omega)] at h
  have h' : rename (argument (stem ++ r)) ext = .ub := h
  simp [dumpLinear, dumpNonlinear, h', Res.bind]

example : dumpLinear [".g2".toList] (argument "model".toList) = .ub ∧ dumpNonlinear [".sol".toList] (argument "model.in".toList) = .ub := by decide +kernel

/-- **C93** (partial): the nonlinear program also handles leading dots, as in relative paths. -/
theorem C93_dump_nonlinear_partial (d stem x : List Char) (hd : ∀ c ∈ d, c = '.') (h0 : stem ≠ []) (hs : '.' ∉ stem) (exts : List (List Char))
    (he : ∀ e ∈ exts, IsExt e ∧ e.length ≤ x.length + 1) :
    dumpNonlinear exts (argument (d ++ stem ++ '.' :: x)) = .ok (exts.map fun e => d ++ stem ++ e) := by
  suffices h : ∀ (exts : List (List Char)) (r : List Char) (cap : Nat), (∀ e ∈ exts, IsExt e ∧ d.length + stem.length + e.length ≤ cap) → (r = [] ∨ r.head? = some '.') →
      dumpNonlinear exts ⟨d ++ stem ++ r, cap⟩ = .ok (exts.map fun e => d ++ stem ++ e) by
    refine h exts ('.' :: x) _ (fun e hm => ⟨(he e hm).1, ?_⟩) (Or.inr rfl)
    have := (he e hm).2
    simp; omega
  intro exts
  induction exts with
  | nil => intro r cap _ _; rfl
  | cons e es ih =>
    intro r cap h hr
    have he := h e (by simp)
    have hren := rename_eq d stem r e cap hd h0 hs hr
    rw [if_pos he.2] at hren
    have hdot : e.head? = some '.' := by obtain ⟨y, hy, _⟩ := he.1; rw [hy]; rfl
    have := ih e cap (fun e hm => h e (by simp [hm])) (Or.inr hdot)
    simp only [dumpNonlinear, hren, Res.bind, this, List.map_cons]

example : dumpNonlinear [".g2".toList, ".sol".toList] (argument "../run/model.xinp".toList) = .ok ["../run/model.g2".toList, "../run/model.sol".toList] := by
  decide +kernel

/-! ### Restart files -/

theorem lastDot_some (p x : List Char) (hx : '.' ∉ x) : lastDot (p ++ '.' :: x) = some p.length := by
  have : (p ++ '.' :: x).reverse.findIdx? (fun c => decide (c = '.')) = some x.length := by
    rw [List.reverse_append, List.reverse_cons, List.append_assoc, List.findIdx?_append]
    have h1 : List.findIdx? (fun c => decide (c = '.')) x.reverse = none := by
      rw [List.findIdx?_eq_none_iff]; intro c hc
      simp only [decide_eq_false_iff_not]; rintro rfl; exact hx (by simpa using hc)
    simp [h1, List.findIdx?_cons]
  unfold lastDot
  rw [this]
  simp

theorem lastDot_none (s : List Char) : lastDot s = none ↔ '.' ∉ s := by
  unfold lastDot
  cases h : s.reverse.findIdx? (fun c => decide (c = '.')) with
  | none =>
    simp only [true_iff]
    rw [List.findIdx?_eq_none_iff] at h
    intro hm; have := h '.' (by simpa using hm); simp at this
  | some i =>
    simp only [reduceCtorEq, false_iff, not_not]
    by_contra hn
    have : List.findIdx? (fun c => decide (c = '.')) s.reverse = none := by
      rw [List.findIdx?_eq_none_iff]; intro c hc
      simp only [decide_eq_false_iff_not]; rintro rfl; exact hn (by simpa using hc)
    rw [this] at h; cases h

/-- **C93** (partial): the restart file is named after the HDF5 file, or else after the input file without its extension, if it has one. -/
theorem C93_restart_partial (hdf5 p x : List Char) (hx : '.' ∉ x) :
    (hdf5 ≠ [] → ∀ infile, restartOther hdf5 infile = .ok (hdf5 ++ "_restart.hdf5".toList)) ∧
    restartOther [] (p ++ '.' :: x) = .ok (p ++ "_restart.hdf5".toList) := by
  constructor
  · intro h infile
    simp [restartOther, restartName, h, Res.bind]
  · simp [restartOther, restartName, lastDot_some p x hx, Res.bind]

example : restartOther [] "../v1.2/model.xinp".toList = .ok "../v1.2/model_restart.hdf5".toList := by decide +kernel

/-- **C93** does not hold for input files without an extension: the program is ended by an exception, or the file is named after a part of the directory. -/
theorem C93_restart_violated : (∀ infile : List Char, '.' ∉ infile → restartOther [] infile = .fail ∧ ∀ files, restartNonlinear files [] infile = .fail) ∧
    restartOther [] "v1.2/model".toList = .ok "v1_restart.hdf5".toList ∧ restartOther [] "./model".toList = .ok "_restart.hdf5".toList := by
  refine ⟨fun infile h => ?_, by decide +kernel, by decide +kernel⟩
  have := (lastDot_none infile).mpr h
  constructor
  · simp [restartOther, restartName, this, Res.bind]
  · intro files; simp [restartNonlinear, restartName, this, Res.bind]

theorem toString_toList (i : Nat) : (toString i).toList = Nat.toDigits 10 i := by
  show (Nat.repr i).toList = _
  rw [Nat.repr_eq_ofList_toDigits, String.toList_ofList]

theorem toString_inj {i j : Nat} (h : (toString i).toList = (toString j).toList) : i = j := by
  rw [toString_toList, toString_toList] at h
  have h2 := congrArg (fun l => Nat.ofDigitChars 10 l 0) h
  simpa [Nat.ofDigitChars_toDigits] using h2

theorem toString_ne (i : Nat) : (toString i).toList ≠ [] := by
  rw [toString_toList]; exact Nat.toDigits_ne_nil

/-- The i-th name tried. -/
def cand (base : List Char) (i : Nat) : List Char := if i = 0 then base else base ++ (toString i).toList

theorem cand_inj (base : List Char) {i j : Nat} (h : cand base i = cand base j) : i = j := by
  unfold cand at h
  split_ifs at h with h1 h2 h2
  · omega
  · exact absurd (List.self_eq_append_right.mp h) (toString_ne j)
  · exact absurd (List.append_right_eq_self.mp h) (toString_ne i)
  · exact toString_inj (List.append_cancel_left h)

theorem freeName_spec (files : List (List Char)) (base : List Char) : ∀ (n i : Nat) (hn : ∃ k < n, cand base (i + k) ++ ".hdf5".toList ∉ files),
    ∃ k, freeName files base n (i + 1) (cand base i) = cand base (i + k) ∧ cand base (i + k) ++ ".hdf5".toList ∉ files ∧
      ∀ j < k, cand base (i + j) ++ ".hdf5".toList ∈ files := by
  intro n
  induction n with
  | zero => rintro i ⟨k, hk, _⟩; omega
  | succ n ih =>
    rintro i ⟨k, hk, hf⟩
    unfold freeName
    by_cases h : cand base i ++ ".hdf5".toList ∈ files
    · rw [if_pos h]
      have hk0 : k ≠ 0 := by rintro rfl; exact hf (by simpa using h)
      have e : base ++ (toString (i + 1)).toList = cand base (i + 1) := by simp [cand]
      rw [e]
      obtain ⟨k', h1, h2, h3⟩ := ih (i + 1) ⟨k - 1, by omega, by rwa [show i + 1 + (k - 1) = i + k by omega]⟩
      refine ⟨k' + 1, by rw [h1]; congr 1; omega, by rwa [show i + (k' + 1) = i + 1 + k' by omega], fun j hj => ?_⟩
      cases j with
      | zero => simpa using h
      | succ j => have := h3 j (by omega); rwa [show i + 1 + j = i + (j + 1) by omega] at this
    · rw [if_neg h]
      exact ⟨0, rfl, by simpa using h, fun j hj => by omega⟩

/-- **C93**: the restart file of the nonlinear program is always a new one: no existing file is overwritten, and the number appended is the smallest possible. -/
theorem C93_restart_new (files : List (List Char)) (hdf5 infile base : List Char) (hb : restartName hdf5 infile = .ok base) :
    ∃ k, restartNonlinear files hdf5 infile = .ok ((if k = 0 then base else base ++ (toString k).toList) ++ ".hdf5".toList) ∧
      (if k = 0 then base else base ++ (toString k).toList) ++ ".hdf5".toList ∉ files ∧
      ∀ j < k, (if j = 0 then base else base ++ (toString j).toList) ++ ".hdf5".toList ∈ files := by
  have hex : ∃ k < files.length + 1, cand base (0 + k) ++ ".hdf5".toList ∉ files := by
    by_contra hn
    push Not at hn
    have hnd : ((List.range (files.length + 1)).map fun k => cand base k ++ ".hdf5".toList).Nodup := by
      refine List.Nodup.map ?_ List.nodup_range
      intro i j h
      exact cand_inj base (List.append_cancel_right h)
    have hsub : ((List.range (files.length + 1)).map fun k => cand base k ++ ".hdf5".toList) ⊆ files := by
      intro f hf
      obtain ⟨k, hk, rfl⟩ := List.mem_map.mp hf
      have := hn k (List.mem_range.mp hk)
      simpa using this
    have := (List.subperm_of_subset hnd hsub).length_le
    simp at this
  obtain ⟨k, h1, h2, h3⟩ := freeName_spec files base (files.length + 1) 0 hex
  refine ⟨k, ?_, by simpa [cand] using h2, fun j hj => by simpa [cand] using h3 j hj⟩
  have e : cand base 0 = base := rfl
  rw [e] at h1
  unfold restartNonlinear
  rw [hb]
  simp only [Res.bind, h1, Nat.zero_add]
  rfl

example : restartNonlinear ["m_restart.hdf5".toList, "m_restart1.hdf5".toList] [] "m.xinp".toList = .ok "m_restart2.hdf5".toList := by decide +kernel

/-- **C93** does not hold for the other programs: an existing restart file, such as the one that was restarted from, gets overwritten. -/
theorem C93_restart_new_violated : ∃ (files : List (List Char)) (infile f : List Char), restartOther [] infile = .ok f ∧ f ∈ files :=
  ⟨["m_restart.hdf5".toList], "m.xinp".toList, "m_restart.hdf5".toList, by decide +kernel, by decide +kernel⟩

/-! ### Other files -/

/-- **C93**: the superelement file has the name given, with extension `.sup` if there is no dot in it; the default visualization file has the name of the geometry file with the extension
exchanged. -/
theorem C93_supel (name p x : List Char) (hx : '.' ∉ x) :
    (supelFile name = if '.' ∈ name then name else name ++ ".sup".toList) ∧ vtfName (p ++ '.' :: x) = .ok (p ++ ".vtf".toList) := by
  constructor
  · unfold supelFile
    by_cases h : '.' ∈ name
    · rw [if_pos h, if_neg (by rw [lastDot_none]; exact not_not.mpr h)]
    · rw [if_neg h, if_pos ((lastDot_none name).mpr h)]
  · simp [vtfName, lastDot_some p x hx]

example : vtfName "geo/plate.g2".toList = .ok "geo/plate.vtf".toList ∧ supelFile "wing".toList = "wing.sup".toList := by decide +kernel

end Verif.FileNames

/-
Model of Elasticity/IsotropicTextureMat.C.
-/
import Verif.Model.LinIsotropic
import Mathlib.Algebra.Order.Floor.Ring

namespace Verif.Texture

variable {K : Type*}

/-- Conversion of a `double` to `int`: truncation towards zero; undefined behaviour when the
truncated value is not representable (32-bit `int`). -/
def toInt [Field K] [LinearOrder K] [FloorRing K] (x : K) : Res Int :=
  let t : Int := if 0 ≤ x then ⌊x⌋ else ⌈x⌉
  if -(2 ^ 31) ≤ t ∧ t < 2 ^ 31 then .ok t else .ub

/-- `std::pair<double,double>` ordering used by `std::map<Doubles,LinIsotropic>`. -/
def keyLt [LT K] (a b : K × K) : Prop := a.1 < b.1 ∨ (a.1 = b.1 ∧ a.2 < b.2)

instance [LinearOrder K] : DecidableRel (keyLt (K := K)) := fun a b => by
  unfold keyLt; infer_instance

/-- `materials[range] = mat` on the ordered map (Elasticity/IsotropicTextureMat.C:53):
insertion in key order, overwriting an existing entry with the same key. -/
def mapInsert [LinearOrder K] {M : Type*} (k : K × K) (m : M) :
    List ((K × K) × M) → List ((K × K) × M)
  | [] => [(k, m)]
  | (k', m') :: r =>
    if keyLt k k' then (k, m) :: (k', m') :: r
    else if keyLt k' k then (k', m') :: mapInsert k m r
    else (k', m) :: r

/-- The interval test of the lookup (Elasticity/IsotropicTextureMat.C:86-89). -/
def inRange [LE K] (I : K) (k : K × K) : Prop := k.1 ≤ I ∧ I ≤ k.2

instance [LinearOrder K] (I : K) (k : K × K) : Decidable (inRange I k) := by
  unfold inRange; infer_instance

/-- `findMaterial` (Elasticity/IsotropicTextureMat.C:69-92). `tex` holds the first channel of
`textureData` (the only one used); `none` is the null pointer. -/
def findMaterial [Field K] [LinearOrder K] [FloorRing K] {M : Type*} (tex : List (List K))
    (mats : List ((K × K) × M)) (u v : K) : Res (Option M) :=
  match tex with
  | [] => .ok none
  | front :: _ =>
    let nrow : Int := tex.length
    let ncol : Int := front.length
    (toInt (u * ((nrow - 1 : Int) : K))).bind fun i =>
    (toInt (v * ((ncol - 1 : Int) : K))).bind fun j =>
    if i < 0 ∨ i ≥ nrow ∨ j < 0 ∨ j ≥ ncol then
      .ok none
    else
      match tex[i.toNat]? with
      | none => .ub
      | some row =>
        match row[j.toNat]? with
        | none => .ub
        | some I => .ok ((mats.find? (fun a => decide (inRange I a.1))).map (·.2))

/-- `evaluate` for the Lamé parameters: forwards to the material found
(Elasticity/IsotropicTextureMat.C:95-101). -/
def lame [Field K] [LinearOrder K] [FloorRing K] (tex : List (List K))
    (mats : List ((K × K) × LinIso.Mat K)) (fe : LinIso.FE K) (X : LinIso.Pt K) : Res (K × K) :=
  match findMaterial tex mats fe.u fe.v with
  | .ok (some m) => (LinIso.lame m fe X).2
  | .ok none => .fail
  | .fail => .fail
  | .ub => .ub

/-! ### Reading of the image (Elasticity/IsotropicTextureMat.C:35-40) -/

/-- The pixel table `textureData[i][j][c]` together with the read pointer `data`. -/
structure Img (K : Type*) where
  px : Nat → Nat → Nat → K
  ptr : Nat

/-- One iteration of the innermost loop: `textureData[i][j][c] = double(*data++)/255.0`. The pixel is
a `std::array<double,4>`, so `c > 3` is undefined behaviour, as is a table index outside
`width × height` or reading past the image buffer. -/
def readOne [Field K] (data : List Nat) (width height : Nat) (i j c : Nat) (s : Img K) :
    Res (Img K) :=
  if i < width ∧ j < height ∧ c < 4 then
    match data[s.ptr]? with
    | none => .ub
    | some b => .ok ⟨fun a b' d => if a = i ∧ b' = j ∧ d = c then (b : K) / 255 else s.px a b' d,
                     s.ptr + 1⟩
  else .ub

/-- The triple loop over rows, columns and channels. -/
def readImage [Field K] (data : List Nat) (width height nch : Nat) : Res (Img K) :=
  loop (fun j => loop (fun i => loop (fun c => readOne data width height i j c) nch) width) height
    ⟨fun _ _ _ => 0, 0⟩

/-! ### Parsing of the material ranges and ownership of the function objects

`LinIsotropic` deletes its function objects in the destructor (Elasticity/LinIsotropic.C:64-75) and
has no user-defined copy operations, so copies share the pointers.  The heap is the list of
live function objects; deleting or calling a dead object is undefined behaviour.  Only the
stiffness function is modelled (the other seven pointers are handled in the same way). -/

/-- A `<range>` element: optional attributes and an optional stiffness function. -/
structure RangeElem (K : Type*) where
  min : Option K := none
  max : Option K := none
  E : Option K := none
  nu : Option K := none
  stiffness : Bool := false

/-- `LinIsotropic` object: constants and the (shared) pointer to the stiffness function. -/
structure Obj (K : Type*) where
  Emod : K
  nu : K
  Efunc : Option Nat
  deriving DecidableEq

structure Heap where
  next : Nat
  live : List Nat
  deriving DecidableEq

/-- `utl::parseRealFunc`: allocates a new function object. -/
def Heap.alloc (h : Heap) : Heap × Nat := (⟨h.next + 1, h.next :: h.live⟩, h.next)

/-- `delete p` (a null pointer is ignored). -/
def Heap.delete (h : Heap) : Option Nat → Res Heap
  | none => .ok h
  | some p => if p ∈ h.live then .ok ⟨h.next, h.live.erase p⟩ else .ub

/-- `LinIsotropic::parse` (Elasticity/LinIsotropic.C:77-131), stiffness and Poisson's ratio only. A second
stiffness function is ignored when the object already has one (line 117-118). -/
def Obj.parse [Field K] [LinearOrder K] (o : Obj K) (h : Heap) (r : RangeElem K) : Obj K × Heap :=
  let o : Obj K := if (0 : K) ≤ o.Emod then { o with Emod := r.E.getD o.Emod } else o
  let o : Obj K := { o with nu := r.nu.getD o.nu }
  if r.stiffness = true ∧ (0 : K) ≤ o.Emod ∧ o.Efunc = none then
    let (h, p) := h.alloc
    ({ o with Efunc := some p }, h)
  else (o, h)

/-- The loop over the `<range>` elements (Elasticity/IsotropicTextureMat.C:44-54). `mat` and `range` are
declared outside the loop, so they keep what earlier elements assigned. Overwriting an existing
map entry copies over it without releasing what it pointed to. -/
def parseRanges [Field K] [LinearOrder K] :
    List (RangeElem K) → (K × K) → Obj K → Heap → List ((K × K) × Obj K) →
      (Obj K × Heap × List ((K × K) × Obj K))
  | [], _, mat, h, m => (mat, h, m)
  | r :: rs, range, mat, h, m =>
    let range := (r.min.getD range.1, r.max.getD range.2)
    let (mat, h) := mat.parse h r
    parseRanges rs range mat h (mapInsert range mat m)

/-- The part of `parse` after the image has been read (lines 42-55): the local `mat` is destroyed
at the end of the function. -/
def parse [Field K] [LinearOrder K] (dflt : Obj K) (rs : List (RangeElem K)) :
    Res (Heap × List ((K × K) × Obj K)) :=
  let (mat, h, m) := parseRanges rs (0, 0) dflt ⟨0, []⟩ []
  match h.delete mat.Efunc with
  | .ok h => .ok (h, m)
  | .fail => .fail
  | .ub => .ub

/-- The `std::find_if` loop with its predicate taking `const std::pair<Doubles,LinIsotropic>&`
(Elasticity/IsotropicTextureMat.C:84-89). The elements of the map are
`std::pair<const Doubles,LinIsotropic>`, so each call builds a temporary copy, which is destroyed
after the call, deleting the shared function object. -/
def lookup [LinearOrder K] (I : K) (h : Heap) :
    List ((K × K) × Obj K) → Res (Heap × Option (Obj K))
  | [] => .ok (h, none)
  | (k, o) :: r =>
    match h.delete o.Efunc with
    | .ok h' => if inRange I k then .ok (h', some o) else lookup I h' r
    | .fail => .fail
    | .ub => .ub

/-- Calling the stiffness function of the material found (as in `LinIsotropic::evaluate`). -/
def callE (h : Heap) (o : Obj K) : Res Unit :=
  match o.Efunc with
  | none => .ok ()
  | some p => if p ∈ h.live then .ok () else .ub

end Verif.Texture

/-
Shared vocabulary of the model.

`Res` is the outcome of a C++ function that reports success with a `bool`:
`ok` is a `true` return together with the output arguments, `fail` is a `false`
return, and `ub` is undefined behaviour (an access outside an array, a null
pointer dereference, a wrong cast).  No model function turns `ub` into a value.
-/
import Mathlib.Data.Matrix.Mul
import Mathlib.Algebra.BigOperators.Fin

namespace Verif

universe u v

/-- Outcome of a C++ call: `ok` = success with outputs, `fail` = reported error,
`ub` = undefined behaviour. -/
inductive Res (α : Type u) : Type u
  | ok (a : α)
  | fail
  | ub
  deriving Repr, DecidableEq

namespace Res

/-- Sequencing: the first failure or undefined behaviour ends the computation. -/
@[simp] protected def bind {α : Type u} {β : Type v} : Res α → (α → Res β) → Res β
  | ok a, f => f a
  | fail, _ => fail
  | ub, _ => ub

instance : Monad Res where
  pure := ok
  bind := Res.bind

@[simp] theorem ok_bind {α β : Type u} (a : α) (f : α → Res β) : (ok a >>= f) = f a := rfl
@[simp] theorem fail_bind {α β : Type u} (f : α → Res β) : ((fail : Res α) >>= f) = fail := rfl
@[simp] theorem ub_bind {α β : Type u} (f : α → Res β) : ((ub : Res α) >>= f) = ub := rfl
@[simp] theorem pure_eq {α : Type u} (a : α) : (pure a : Res α) = ok a := rfl

/-- The call ended in undefined behaviour. -/
def isUB {α : Type u} : Res α → Bool
  | ub => true
  | _ => false

/-- The call returned `true`. -/
def isOk {α : Type u} : Res α → Bool
  | ok _ => true
  | _ => false

@[simp] theorem isUB_ok {α : Type u} (a : α) : (ok a).isUB = false := rfl
@[simp] theorem isUB_fail {α : Type u} : (fail : Res α).isUB = false := rfl
@[simp] theorem isUB_ub {α : Type u} : (ub : Res α).isUB = true := rfl
@[simp] theorem isOk_ok {α : Type u} (a : α) : (ok a).isOk = true := rfl
@[simp] theorem isOk_fail {α : Type u} : (fail : Res α).isOk = false := rfl
@[simp] theorem isOk_ub {α : Type u} : (ub : Res α).isOk = false := rfl

end Res

/-- The IFEM dense matrix `utl::matrix<Real>` as used in the repository: element
access `A(i,j)` is one-based, and access outside `1..nr × 1..nc` is undefined
behaviour.  The stored function is only meaningful inside that range. -/
structure DMat (K : Type u) where
  nr : Nat
  nc : Nat
  e : Nat → Nat → K

namespace DMat
variable {K : Type u}

/-- `A.resize(n,m,true)`: a zero matrix of the given size. -/
def zero [Zero K] (n m : Nat) : DMat K := ⟨n, m, fun _ _ => 0⟩

/-- Reading `A(i,j)`. -/
def get (A : DMat K) (i j : Nat) : Res K :=
  if 1 ≤ i ∧ i ≤ A.nr ∧ 1 ≤ j ∧ j ≤ A.nc then .ok (A.e i j) else .ub

/-- The assignment `A(i,j) = v`. -/
def set (A : DMat K) (i j : Nat) (v : K) : Res (DMat K) :=
  if 1 ≤ i ∧ i ≤ A.nr ∧ 1 ≤ j ∧ j ≤ A.nc
  then .ok ⟨A.nr, A.nc, fun a b => if a = i ∧ b = j then v else A.e a b⟩
  else .ub

/-- The compound assignment `A(i,j) += v`. -/
def add [Add K] (A : DMat K) (i j : Nat) (v : K) : Res (DMat K) :=
  if 1 ≤ i ∧ i ≤ A.nr ∧ 1 ≤ j ∧ j ≤ A.nc
  then .ok ⟨A.nr, A.nc, fun a b => if a = i ∧ b = j then A.e a b + v else A.e a b⟩
  else .ub

/-- The contents as a Mathlib matrix (zero-based indices). -/
def toM (A : DMat K) (n m : Nat) : Matrix (Fin n) (Fin m) K :=
  fun i j => A.e (i.val + 1) (j.val + 1)

end DMat

/-- A dense vector `utl::vector<Real>` with one-based checked access `v(i)`. -/
structure DVec (K : Type u) where
  n : Nat
  e : Nat → K

namespace DVec
variable {K : Type u}

def zero [Zero K] (n : Nat) : DVec K := ⟨n, fun _ => 0⟩

def get (A : DVec K) (i : Nat) : Res K :=
  if 1 ≤ i ∧ i ≤ A.n then .ok (A.e i) else .ub

def set (A : DVec K) (i : Nat) (v : K) : Res (DVec K) :=
  if 1 ≤ i ∧ i ≤ A.n then .ok ⟨A.n, fun a => if a = i then v else A.e a⟩ else .ub

def add [Add K] (A : DVec K) (i : Nat) (v : K) : Res (DVec K) :=
  if 1 ≤ i ∧ i ≤ A.n then .ok ⟨A.n, fun a => if a = i then A.e a + v else A.e a⟩ else .ub

def toV (A : DVec K) (n : Nat) : Fin n → K := fun i => A.e (i.val + 1)

end DVec

/-! ### Loops and sequences of assignments -/

/-- `for (int k = 0; k < n; k++) f(k)` on a state `S`. -/
def loop {S : Type u} (f : Nat → S → Res S) : Nat → S → Res S
  | 0, s => .ok s
  | n + 1, s => match loop f n s with
    | .ok s' => f n s'
    | .fail => .fail
    | .ub => .ub

theorem loop_inv {S : Type u} (f : Nat → S → Res S) (P : Nat → S → Prop) (n : Nat) (s : S)
    (h0 : P 0 s) (hs : ∀ k s, k < n → P k s → ∃ s', f k s = .ok s' ∧ P (k + 1) s') :
    ∃ s', loop f n s = .ok s' ∧ P n s' := by
  induction n with
  | zero => exact ⟨s, rfl, h0⟩
  | succ n ih =>
    obtain ⟨s', e, p⟩ := ih (fun k s hk => hs k s (by omega))
    obtain ⟨s'', e', p'⟩ := hs n s' (by omega) p
    exact ⟨s'', by simp only [loop, e, e'], p'⟩

namespace DMat
variable {K : Type u}

/-- A sequence of assignments `A(i,j) = v`, in order. -/
def setMany (A : DMat K) : List (Nat × Nat × K) → Res (DMat K)
  | [] => .ok A
  | (i, j, v) :: l => (A.set i j v).bind fun B => B.setMany l

/-- A sequence of compound assignments `A(i,j) += v`, in order. -/
def addMany [Add K] (A : DMat K) : List (Nat × Nat × K) → Res (DMat K)
  | [] => .ok A
  | (i, j, v) :: l => (A.add i j v).bind fun B => B.addMany l

/-- Position inside the matrix. -/
def Inside (A : DMat K) (i j : Nat) : Prop := 1 ≤ i ∧ i ≤ A.nr ∧ 1 ≤ j ∧ j ≤ A.nc

/-- Reinterpretation of the column-major storage with new dimensions (`A.resize(n,m)` when the
total size is unchanged). -/
def reshape (A : DMat K) (n m : Nat) : DMat K :=
  ⟨n, m, fun i j =>
    let l := (i - 1) + n * (j - 1)
    A.e (l % A.nr + 1) (l / A.nr + 1)⟩

/-- The bilinear form `xᵀ A y` (one-based vectors). -/
def bil [NonUnitalNonAssocSemiring K] (A : DMat K) (x y : Nat → K) : K :=
  ∑ i ∈ Finset.range A.nr, ∑ j ∈ Finset.range A.nc, x (i + 1) * A.e (i + 1) (j + 1) * y (j + 1)

/-- The product `A y` (one-based vectors). -/
def mulV [NonUnitalNonAssocSemiring K] (A : DMat K) (y : Nat → K) (i : Nat) : K :=
  ∑ j ∈ Finset.range A.nc, A.e i (j + 1) * y (j + 1)

end DMat

namespace DVec
variable {K : Type u}

/-- A sequence of compound assignments `b(i) += v`, in order. -/
def addMany [Add K] (A : DVec K) : List (Nat × K) → Res (DVec K)
  | [] => .ok A
  | (i, v) :: l => (A.add i v).bind fun B => B.addMany l

/-- The product `xᵀ b` (one-based). -/
def dot [NonUnitalNonAssocSemiring K] (A : DVec K) (x : Nat → K) : K :=
  ∑ i ∈ Finset.range A.n, x (i + 1) * A.e (i + 1)

end DVec

/-- Nodal field `u a i` (node `a ≥ 1`, component `1 ≤ i ≤ d`) as an element vector with node-major
numbering: entry `d*(a-1)+i` is `u a i`. -/
def dofVec {K : Type u} (d : Nat) (u : Nat → Nat → K) (k : Nat) : K :=
  u ((k - 1) / d + 1) ((k - 1) % d + 1)

end Verif

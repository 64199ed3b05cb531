import Verif.Model.EkfDense
/-!
# What a dense vector or matrix is: C111

The entries of the blocks, one block after the other.
-/
namespace Verif.Spec.EkfDense

open Verif.Model.EkfDense

/-- The size of the state at position `i`: an element times the counter for a variable state. -/
def dimOf (s : St) (n : ℕ) : ℕ := if s.var then n * s.base else s.base

/-- The sizes of the states. -/
def dims (sts : List St) (v : Env) : List ℕ := sts.zipIdx.map fun s => dimOf s.1 (v s.2)

/-- Where block `i` begins. -/
def off (ds : List ℕ) (i : ℕ) : ℕ := (ds.take i).sum

variable {α : Type}

/-- `x` is the vector of the blocks `e`, of sizes `ds`. -/
def IsVec (ds : List ℕ) (e : ℕ → ℕ → Option α) (x : ℕ × (ℕ → Option α)) : Prop :=
  x.1 = ds.sum ∧ ∀ i (h : i < ds.length) k, k < ds[i] → x.2 (off ds i + k) = e i k

/-- `x` is the matrix of the blocks `B`. -/
def IsMat (rs cs : List ℕ) (B : ℕ → ℕ → ℕ → ℕ → Option α) (x : ℕ × ℕ × (ℕ → ℕ → Option α)) : Prop :=
  x.1 = rs.sum ∧ x.2.1 = cs.sum ∧
    ∀ i (h : i < rs.length) j (h' : j < cs.length) a b, a < rs[i] → b < cs[j] → x.2.2 (off rs i + a) (off cs j + b) = B i j a b

/-- The whole covariance from its upper triangle. -/
def sym (P : ℕ → ℕ → ℕ → ℕ → Option α) : ℕ → ℕ → ℕ → ℕ → Option α := fun i j a b =>
  if i < j ∨ (i = j ∧ a ≤ b) then P i j a b else P j i b a

/-- A diagonal matrix whose entries repeat in each state. -/
def diagonal (sts : List St) (q : ℕ → ℕ → Option α) (z : α) : ℕ → ℕ → ℕ → ℕ → Option α := fun i j a b =>
  if i = j ∧ a = b then q i (a % ((sts[i]?.map St.base).getD 1)) else some z

/-- The counters are not larger than the buffers. -/
def Fits (sts : List St) (v : Env) : Prop := ∀ i (h : i < sts.length), sts[i].var → v i ≤ sts[i].bundle

/-- The fixed states come first. -/
def FixedFirst (sts : List St) : Prop := ∃ f g : List St, sts = f ++ g ∧ (∀ s ∈ f, s.var = false) ∧ ∀ s ∈ g, s.var = true

end Verif.Spec.EkfDense

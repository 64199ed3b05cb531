import Verif.Lemmas.Ltdl
import Mathlib.LinearAlgebra.Matrix.Determinant.Basic
import Mathlib.Tactic.LinearCombination
/-! # Lemmas about the decorrelating reduction -/
namespace Verif.Lambda
open Finset

variable {K : Type} [Field K] [LinearOrder K] [IsStrictOrderedRing K] [FloorRing K]

/-- Entry `(a, b)` of `Zᵀ Q Z`. -/
def congr2 (N : Nat) (Z Q : Mat K) (a b : Nat) : K :=
  ∑ p ∈ range N, ∑ q ∈ range N, Z p a * Q p q * Z q b

/-- The integer `round` produces. -/
def roundZ (x : K) : Int := if 0 ≤ x then ⌊x + 1 / 2⌋ else ⌈x - 1 / 2⌉

theorem round_eq (x : K) : round x = (roundZ x : K) := by
  unfold round roundZ; split <;> rfl

theorem abs_sub_round (x : K) : |x - round x| ≤ 1 / 2 := by
  unfold round
  split
  · have h1 := Int.floor_le (x + 1 / 2)
    have h2 := Int.lt_floor_add_one (x + 1 / 2)
    rw [abs_le]; constructor <;> linarith
  · have h1 := Int.le_ceil (x - 1 / 2)
    have h2 := Int.ceil_lt_add_one (x - 1 / 2)
    rw [abs_le]; constructor <;> linarith

/-- Subtracting `mu` times column `i` from column `j`. -/
def colOp (i j : Nat) (mu : K) (M : Mat K) : Mat K :=
  fun r c => if c = j then M r c - mu * M r i else M r c

/-- Its effect on a matrix of products of columns. -/
def opp (i j : Nat) (mu : K) (G : Mat K) : Mat K := fun a b =>
  if a = j then
    if b = j then G a b - mu * G i b - mu * (G a i - mu * G i i) else G a b - mu * G i b
  else if b = j then G a b - mu * G a i else G a b

theorem gram_colOp (N i j : Nat) (mu : K) (M : Mat K) (D : Vec K) (a b : Nat) :
    gram N (colOp i j mu M) D a b = opp i j mu (gram N M D) a b := by
  unfold gram opp colOp
  split_ifs <;> simp only [mul_sum, ← sum_sub_distrib] <;> apply sum_congr rfl <;> intro r _ <;> ring

theorem congr2_colOp (N i j : Nat) (mu : K) (Z Q : Mat K) (a b : Nat) :
    congr2 N (colOp i j mu Z) Q a b = opp i j mu (congr2 N Z Q) a b := by
  unfold congr2 opp colOp
  split_ifs <;> simp only [mul_sum, ← sum_sub_distrib] <;> apply sum_congr rfl <;> intro p _ <;>
    apply sum_congr rfl <;> intro q _ <;> ring

/-- Exchange of `k` and `k + 1`. -/
def swp (k c : Nat) : Nat := if c = k then k + 1 else if c = k + 1 then k else c

theorem swp_lt {N k c : Nat} (hk : k + 1 < N) (hc : c < N) : swp k c < N := by
  unfold swp; split_ifs <;> omega

/-- An integer matrix of determinant plus or minus one. -/
def Unimodular (N : Nat) (Z : Mat K) : Prop :=
  ∃ W : Matrix (Fin N) (Fin N) Int, (W.det = 1 ∨ W.det = -1) ∧
    ∀ r c : Fin N, Z r c = (W r c : K)

theorem unimodular_one (N : Nat) : Unimodular N (fun r c => if r = c then (1 : K) else 0) := by
  refine ⟨1, Or.inl Matrix.det_one, fun r c => ?_⟩
  rw [Matrix.one_apply]
  by_cases h : r = c
  · subst h; simp
  · have : ¬ (r : Nat) = c := fun hc => h (Fin.ext hc)
    simp [h, this]

theorem unimodular_colOp {N i j : Nat} (hi : i < N) (hj : j < N) (hij : i ≠ j) (m : Int) {Z : Mat K}
    (h : Unimodular N Z) : Unimodular N (colOp i j (m : K) Z) := by
  obtain ⟨W, hd, hW⟩ := h
  refine ⟨W.updateCol ⟨j, hj⟩ (fun r => W r ⟨j, hj⟩ + (-m) • W r ⟨i, hi⟩), ?_, fun r c => ?_⟩
  · rw [Matrix.det_updateCol_add_smul_self]
    · exact hd
    · intro hc; exact hij (by have := congrArg Fin.val hc; simpa using this.symm)
  · rw [Matrix.updateCol_apply]
    unfold colOp
    by_cases hc : c = ⟨j, hj⟩
    · subst hc
      have h1 := hW r ⟨j, hj⟩
      have h2 := hW r ⟨i, hi⟩
      simp only [if_true] at h1 h2 ⊢
      rw [h1, h2]; push_cast [smul_eq_mul]; ring
    · have : ¬ (c : Nat) = j := fun h => hc (Fin.ext h)
      rw [if_neg hc, if_neg this]; exact hW r c

theorem unimodular_swap {N k : Nat} (hk : k + 1 < N) {Z : Mat K} (h : Unimodular N Z) :
    Unimodular N (fun r c => Z r (swp k c)) := by
  obtain ⟨W, hd, hW⟩ := h
  refine ⟨W.submatrix id (Equiv.swap ⟨k, by omega⟩ ⟨k + 1, hk⟩), ?_, fun r c => ?_⟩
  · rw [Matrix.det_permute', Equiv.Perm.sign_swap (by intro hc; simpa using congrArg Fin.val hc)]
    rcases hd with h | h <;> rw [h] <;> simp
  · rw [Matrix.submatrix_apply, id]
    have : (swp k c : Nat) = ((Equiv.swap (⟨k, by omega⟩ : Fin N) ⟨k + 1, hk⟩ c : Fin N) : Nat) := by
      rw [Equiv.swap_apply_def]
      unfold swp
      by_cases h1 : c = ⟨k, by omega⟩
      · subst h1; simp
      · have h1' : ¬ (c : Nat) = k := fun h => h1 (Fin.ext h)
        by_cases h2 : c = ⟨k + 1, hk⟩
        · subst h2; simp
        · have h2' : ¬ (c : Nat) = k + 1 := fun h => h2 (Fin.ext h)
          rw [if_neg h1, if_neg h2, if_neg h1', if_neg h2']
    simp only [this]; exact hW r _

/-- What every step of the reduction keeps. -/
structure RInv (N : Nat) (Q : Mat K) (a0 : Vec K) (s : Red K) : Prop where
  unit : ∀ i < N, s.L i i = 1
  upper : ∀ r c, r < c → s.L r c = 0
  dpos : ∀ i < N, 0 < s.D i
  fact : ∀ a < N, ∀ b < N, gram N s.L s.D a b = congr2 N s.Z Q a b
  est : ∀ c < N, s.a c = ∑ p ∈ range N, s.Z p c * a0 p
  unim : Unimodular N s.Z

/-- The columns of `L` below the diagonal are at most one half from column `k` on. -/
def Reduced (N k : Nat) (L : Mat K) : Prop := ∀ c, k ≤ c → ∀ r < N, c < r → |L r c| ≤ 1 / 2

theorem gauss_eq {N i j : Nat} {s : Red K} (hu : ∀ r c, r < c → s.L r c = 0) :
    (gauss i j s).L = colOp i j (round (s.L i j)) s.L ∧ (gauss i j s).D = s.D ∧
    (gauss i j s).Z = colOp i j (round (s.L i j)) s.Z ∧
    (gauss i j s).a = setV s.a j (s.a j - round (s.L i j) * s.a i) := by
  unfold gauss
  by_cases h : round (s.L i j) ≠ 0
  · simp only [if_pos h]
    refine ⟨?_, trivial, ?_, trivial⟩
    swap
    · rfl
    funext r c
    unfold colOp
    by_cases hc : c = j
    · by_cases hr : i ≤ r
      · rw [if_pos ⟨hc, hr⟩, if_pos hc]
      · rw [if_neg (by tauto), if_pos hc, hu r i (by omega)]; ring
    · rw [if_neg (by tauto), if_neg hc]
  · simp only [if_neg h]
    have h0 : round (s.L i j) = 0 := not_not.1 h
    rw [h0]
    refine ⟨?_, trivial, ?_, ?_⟩
    · funext r c; unfold colOp; split_ifs <;> ring
    · funext r c; unfold colOp; split_ifs <;> ring
    · funext c; unfold setV; split_ifs with hc
      · rw [hc]; ring
      · rfl

theorem gauss_inv {N i j : Nat} {Q : Mat K} {a0 : Vec K} {s : Red K} (hi : i < N) (hij : j < i)
    (h : RInv N Q a0 s) : RInv N Q a0 (gauss i j s) := by
  obtain ⟨eL, eD, eZ, ea⟩ := gauss_eq (N := N) (i := i) (j := j) h.upper
  constructor
  · intro r hr
    rw [eL]; unfold colOp
    split_ifs with hc
    · subst hc; rw [h.upper r i hij, h.unit r hr]; ring
    · exact h.unit r hr
  · intro r c hrc
    rw [eL]; unfold colOp
    split_ifs with hc
    · subst hc; rw [h.upper r c hrc, h.upper r i (by omega)]; ring
    · exact h.upper r c hrc
  · rw [eD]; exact h.dpos
  · intro a ha b hb
    rw [eL, eD, eZ, gram_colOp, congr2_colOp]
    unfold opp
    split_ifs <;> simp only [h.fact a ha b hb, h.fact i hi b hb, h.fact a ha i hi, h.fact i hi i hi]
  · intro c hc
    rw [ea, eZ]; unfold setV colOp
    split_ifs with hcj
    · subst hcj
      rw [h.est c hc, h.est i hi, mul_sum, ← sum_sub_distrib]
      apply sum_congr rfl; intro p _; ring
    · exact h.est c hc
  · rw [eZ, round_eq]
    exact unimodular_colOp hi (by omega) (by omega) _ h.unim

/-- Columns other than `j`, and the rows of column `j` above `i`, are not changed; the entry `(i, j)` is reduced. -/
theorem gauss_entries {N i j : Nat} {Q : Mat K} {a0 : Vec K} {s : Red K} (hi : i < N)
    (h : RInv N Q a0 s) :
    (∀ r c, c ≠ j → (gauss i j s).L r c = s.L r c) ∧
    (∀ r < i, (gauss i j s).L r j = s.L r j) ∧ |(gauss i j s).L i j| ≤ 1 / 2 := by
  obtain ⟨eL, -, -, -⟩ := gauss_eq (N := N) (i := i) (j := j) h.upper
  rw [eL]
  refine ⟨fun r c hc => by unfold colOp; rw [if_neg hc], fun r hr => ?_, ?_⟩
  · unfold colOp; rw [if_pos rfl, h.upper r i hr]; ring
  · unfold colOp; rw [if_pos rfl, h.unit i hi, mul_one]; exact abs_sub_round _

theorem gaussColumn_spec {N k : Nat} {Q : Mat K} {a0 : Vec K} {s : Red K} (h : RInv N Q a0 s) :
    ∀ m, k + 1 + m ≤ N →
    RInv N Q a0 ((List.range m).foldl (fun s i => gauss (k + 1 + i) k s) s) ∧
    (∀ r c, c ≠ k → ((List.range m).foldl (fun s i => gauss (k + 1 + i) k s) s).L r c = s.L r c) ∧
    (∀ r, k < r → r < k + 1 + m →
      |((List.range m).foldl (fun s i => gauss (k + 1 + i) k s) s).L r k| ≤ 1 / 2) := by
  intro m
  induction m with
  | zero => intro _; exact ⟨h, fun _ _ _ => rfl, fun r h1 h2 => by omega⟩
  | succ m ih =>
    intro hm
    obtain ⟨i1, i2, i3⟩ := ih (by omega)
    rw [List.range_succ, List.foldl_append, List.foldl_cons, List.foldl_nil]
    obtain ⟨g1, g2, g3⟩ := gauss_entries (i := k + 1 + m) (j := k) (by omega) i1
    refine ⟨gauss_inv (by omega) (by omega) i1, fun r c hc => by rw [g1 r c hc, i2 r c hc],
      fun r h1 h2 => ?_⟩
    rcases Nat.lt_or_ge r (k + 1 + m) with hlt | hge
    · rw [g2 r hlt]; exact i3 r h1 hlt
    · have : r = k + 1 + m := by omega
      rw [this]; exact g3

theorem sum_two {N k : Nat} (hk : k + 1 < N) (f g : Nat → K)
    (ho : ∀ r < N, r ≠ k → r ≠ k + 1 → f r = g r)
    (h2 : f k + f (k + 1) = g k + g (k + 1)) : ∑ r ∈ range N, f r = ∑ r ∈ range N, g r := by
  have hm1 : k ∈ range N := mem_range.2 (by omega)
  have hm2 : k + 1 ∈ (range N).erase k := mem_erase.2 ⟨by omega, mem_range.2 hk⟩
  rw [← add_sum_erase _ f hm1, ← add_sum_erase _ g hm1, ← add_sum_erase _ f hm2,
    ← add_sum_erase _ g hm2, ← add_assoc, ← add_assoc, h2]
  congr 1
  apply sum_congr rfl
  intro r hr
  have h1 := mem_erase.1 hr
  have h3 := mem_erase.1 h1.2
  exact ho r (mem_range.1 h3.2) h3.1 h1.1

/-- The rows of `L` after `permute`, as images of the swapped columns. -/
theorem permute_L {N k : Nat} {delta : K} {s : Red K} (hk : k + 1 < N) (h1 : ∀ i < N, s.L i i = 1)
    (hu : ∀ r c, r < c → s.L r c = 0) (hd : 0 < delta)
    (hdelta : delta = s.D k + s.L (k + 1) k * s.L (k + 1) k * s.D (k + 1)) (r c : Nat) :
    (permute k delta s).L r c =
      if r = k then -s.L (k + 1) k * s.L k (swp k c) + s.L (k + 1) (swp k c)
      else if r = k + 1 then
        s.D k / delta * s.L k (swp k c) + s.D (k + 1) * s.L (k + 1) k / delta * s.L (k + 1) (swp k c)
      else s.L r (swp k c) := by
  have hkk := h1 k (by omega)
  have hkk1 := h1 (k + 1) hk
  have hk01 := hu k (k + 1) (by omega)
  have hone : s.D k / delta + s.D (k + 1) * s.L (k + 1) k / delta * s.L (k + 1) k = 1 := by
    field_simp; rw [hdelta]; ring
  unfold permute swp
  dsimp only
  rcases lt_trichotomy c k with hc | hc | hc
  · have e1 : ¬ c = k := by omega
    have e2 : ¬ c = k + 1 := by omega
    simp only [hc, e1, e2, and_true, and_false, if_false]
  · subst hc
    have e0 : ¬ c < c := by omega
    have e1 : ¬ c = c + 1 := by omega
    simp only [e0, and_false, and_true, if_false, if_true, hk01, hkk1]
    by_cases hr : r = c
    · subst hr; have : ¬ r + 2 ≤ r := by omega
      have e3 : ¬ r = r + 1 := by omega
      simp only [this, e1, if_false, false_and, if_true, hkk]; ring
    · by_cases hr1 : r = c + 1
      · subst hr1; simp [hr]
      · by_cases hr2 : c + 2 ≤ r
        · simp [hr, hr1, hr2]
        · have : r < c := by omega
          simp only [hr, hr1, hr2, if_false, false_and]
          rw [hu r c this, hu r (c + 1) (by omega)]
  · by_cases hc1 : c = k + 1
    · subst hc1
      have e0 : ¬ k + 1 < k := by omega
      have e1 : ¬ k + 1 = k := by omega
      simp only [e0, e1, and_false, and_true, if_false, if_true, hkk]
      by_cases hr : r = k
      · subst hr; have : ¬ r + 2 ≤ r := by omega
        simp only [this, if_false, if_true, hk01]; ring
      · by_cases hr1 : r = k + 1
        · subst hr1
          have : ¬ k + 2 ≤ k + 1 := by omega
          simp only [this, e1, if_false, if_true, mul_one, hkk1]; exact hone.symm
        · by_cases hr2 : k + 2 ≤ r
          · simp [hr, hr1, hr2]
          · simp only [hr, hr1, hr2, if_false]
            rw [hu r (k + 1) (by omega), hu r k (by omega)]
    · have e0 : ¬ c < k := by omega
      have e1 : ¬ c = k := by omega
      simp only [e0, e1, hc1, and_false, if_false]
      by_cases hr : r = k
      · subst hr; simp only [if_true]; rw [hu r c (by omega), hu (r + 1) c (by omega)]; ring
      · by_cases hr1 : r = k + 1
        · subst hr1; simp only [if_true, hr, if_false]; rw [hu k c (by omega), hu (k + 1) c (by omega)]; ring
        · simp only [hr, hr1, if_false]

theorem permute_inv {N k : Nat} {Q : Mat K} {a0 : Vec K} {s : Red K} (hk : k + 1 < N)
    (h : RInv N Q a0 s) {delta : K}
    (hdelta : delta = s.D k + s.L (k + 1) k * s.L (k + 1) k * s.D (k + 1)) :
    RInv N Q a0 (permute k delta s) := by
  have hDk := h.dpos k (by omega)
  have hDk1 := h.dpos (k + 1) hk
  have hd : 0 < delta := by
    rw [hdelta]; have := mul_nonneg (mul_self_nonneg (s.L (k + 1) k)) hDk1.le; linarith
  have hL := permute_L hk h.unit h.upper hd hdelta
  have hD : ∀ r, (permute k delta s).D r =
      if r = k + 1 then delta else if r = k then s.D k / delta * s.D (k + 1) else s.D r := by
    intro r; rfl
  constructor
  · intro i hi
    unfold permute; dsimp only
    have e1 : ¬ (i = k ∧ i < k) := by omega
    have e2 : ¬ (i = k + 1 ∧ i < k) := by omega
    have e3 : ¬ (i = k + 1 ∧ i = k) := by omega
    have e4 : ¬ (k + 2 ≤ i ∧ i = k) := by omega
    have e5 : ¬ (k + 2 ≤ i ∧ i = k + 1) := by omega
    simp only [e1, e2, e3, e4, e5, if_false]; exact h.unit i hi
  · intro r c hrc
    unfold permute; dsimp only
    have e1 : ¬ (r = k ∧ c < k) := by omega
    have e2 : ¬ (r = k + 1 ∧ c < k) := by omega
    have e3 : ¬ (r = k + 1 ∧ c = k) := by omega
    have e4 : ¬ (k + 2 ≤ r ∧ c = k) := by omega
    have e5 : ¬ (k + 2 ≤ r ∧ c = k + 1) := by omega
    simp only [e1, e2, e3, e4, e5, if_false]; exact h.upper r c hrc
  · intro i hi
    rw [hD]
    split_ifs
    · exact hd
    · exact mul_pos (div_pos hDk hd) hDk1
    · exact h.dpos i hi
  · intro a ha b hb
    have hg : gram N (permute k delta s).L (permute k delta s).D a b = gram N s.L s.D (swp k a) (swp k b) := by
      unfold gram
      apply sum_two hk
      · intro r _ h1 h2
        rw [hL, hL, hD]; simp only [h1, h2, if_false]
      · rw [hL, hL, hL, hL, hD, hD]
        have e1 : ¬ k = k + 1 := by omega
        have e2 : ¬ k + 1 = k := by omega
        simp only [e1, e2, if_false, if_true]
        generalize s.L k (swp k a) = x0
        generalize s.L k (swp k b) = y0
        generalize s.L (k + 1) (swp k a) = x1
        generalize s.L (k + 1) (swp k b) = y1
        field_simp
        rw [hdelta]; ring
    have hz : (permute k delta s).Z = fun r c => s.Z r (swp k c) := by
      funext r c; unfold permute swp; dsimp only; split_ifs <;> rfl
    rw [hg, h.fact _ (swp_lt hk ha) _ (swp_lt hk hb), hz]
    rfl
  · intro c hc
    have : (permute k delta s).a c = s.a (swp k c) := by
      unfold permute setV swp; dsimp only
      by_cases h1 : c = k + 1
      · subst h1; simp
      · by_cases h2 : c = k
        · subst h2; simp
        · simp [h1, h2]
    rw [this, h.est _ (swp_lt hk hc)]
    apply sum_congr rfl; intro p _
    unfold permute swp; dsimp only
    split_ifs <;> rfl
  · have : (permute k delta s).Z = fun r c => s.Z r (swp k c) := by
      funext r c; unfold permute swp; dsimp only; split_ifs <;> rfl
    rw [this]; exact unimodular_swap hk h.unim

/-- The Lovász-type condition between neighbours. -/
def Ordered (k : Nat) (s : Red K) : Prop :=
  s.D (k + 1) ≤ s.D k + s.L (k + 1) k * s.L (k + 1) k * s.D (k + 1)

theorem gaussColumn_D (N k : Nat) (s : Red K) : (gaussColumn N k s).D = s.D := by
  unfold gaussColumn
  generalize List.range (N - (k + 1)) = l
  induction l generalizing s with
  | nil => rfl
  | cons x l ih =>
    rw [List.foldl_cons, ih]
    unfold gauss; dsimp only; split <;> rfl

theorem sweep_spec {N : Nat} {Q : Mat K} {a0 : Vec K} (k1 : Nat) : ∀ (k : Nat) (s : Red K), k + 1 ≤ N →
    RInv N Q a0 s → (∀ c, k1 < c → ∀ r < N, c < r → |s.L r c| ≤ 1 / 2) → Reduced N k s.L →
    (∀ j, k ≤ j → j + 1 < N → Ordered j s) →
    RInv N Q a0 (sweep N k1 k s).2 ∧
    ((sweep N k1 k s).1 = none → Reduced N 0 (sweep N k1 k s).2.L ∧
      ∀ j, j + 1 < N → Ordered j (sweep N k1 k s).2) ∧
    (∀ p, (sweep N k1 k s).1 = some p → Reduced N (p + 1) (sweep N k1 k s).2.L) := by
  intro k
  induction k with
  | zero =>
    intro s _ h _ hred hord
    exact ⟨h, fun _ => ⟨hred, fun j hj => hord j (by omega) hj⟩, fun p hp => by simp [sweep] at hp⟩
  | succ k ih =>
    intro s hk h hk1 hred hord
    unfold sweep
    dsimp only
    set s' := if k ≤ k1 then gaussColumn N k s else s with hs'
    have hs : RInv N Q a0 s' ∧ (∀ r c, c ≠ k → s'.L r c = s.L r c) ∧ s'.D = s.D ∧
        (∀ r, k < r → r < N → |s'.L r k| ≤ 1 / 2) := by
      rw [hs']
      split_ifs with hc
      · obtain ⟨g1, g2, g3⟩ := gaussColumn_spec (k := k) h (N - (k + 1)) (by omega)
        exact ⟨g1, g2, gaussColumn_D N k s, fun r h1 h2 => g3 r h1 (by omega)⟩
      · exact ⟨h, fun _ _ _ => rfl, rfl, fun r h1 h2 => hk1 k (by omega) r h2 h1⟩
    obtain ⟨i1, i2, i3, i4⟩ := hs
    have hred' : Reduced N k s'.L := by
      intro c hc r hr hcr
      rcases Nat.eq_or_lt_of_le hc with e | e
      · subst e; exact i4 r hcr hr
      · rw [i2 r c (by omega)]; exact hred c (by omega) r hr hcr
    split_ifs with hlt
    · refine ⟨permute_inv (by omega) i1 rfl, fun hc => by simp at hc, fun p hp => ?_⟩
      have : k = p := Option.some.inj hp
      subst this
      intro c hc r hr hcr
      have hd : 0 < s'.D k + s'.L (k + 1) k * s'.L (k + 1) k * s'.D (k + 1) := by
        have h1 := i1.dpos k (by omega)
        have h2 := mul_nonneg (mul_self_nonneg (s'.L (k + 1) k)) (i1.dpos (k + 1) (by omega)).le
        linarith
      rw [permute_L (N := N) (by omega) i1.unit i1.upper hd rfl]
      have e1 : ¬ r = k := by omega
      have e2 : ¬ r = k + 1 := by omega
      rw [if_neg e1, if_neg e2]
      unfold swp
      have e3 : ¬ c = k := by omega
      rw [if_neg e3]
      split_ifs with e4
      · exact hred' k le_rfl r hr (by omega)
      · exact hred' c (by omega) r hr hcr
    · apply ih s' (by omega) i1
      · intro c hc r hr hcr
        by_cases hck : c = k
        · subst hck; exact i4 r hcr hr
        · rw [i2 r c hck]; exact hk1 c hc r hr hcr
      · exact hred'
      · intro j hj hjN
        rcases Nat.eq_or_lt_of_le hj with e | e
        · subst e; unfold Ordered; exact not_lt.1 hlt
        · have := hord j (by omega) hjN
          unfold Ordered at this ⊢
          rw [i2 (j + 1) j (by omega), i3]; exact this

theorem reduceLoop_spec {N : Nat} {Q : Mat K} {a0 : Vec K} (fuel : Nat) : ∀ (k1 : Nat) (s out : Red K),
    RInv N Q a0 s → (∀ c, k1 < c → ∀ r < N, c < r → |s.L r c| ≤ 1 / 2) →
    reduceLoop N fuel k1 s = some out → 1 ≤ N →
    RInv N Q a0 out ∧ Reduced N 0 out.L ∧ ∀ j, j + 1 < N → Ordered j out := by
  induction fuel with
  | zero => intro k1 s out _ _ h _; simp [reduceLoop] at h
  | succ fuel ih =>
    intro k1 s out hs hk1 h hN
    have hsw := sweep_spec k1 (N - 1) s (by omega) hs hk1
      (fun c hc r hr hcr => by omega) (fun j h1 h2 => by omega)
    unfold reduceLoop at h
    generalize hp : sweep N k1 (N - 1) s = p at h hsw
    obtain ⟨o, s'⟩ := p
    obtain ⟨h1, h2, h3⟩ := hsw
    cases o with
    | none =>
      have : s' = out := Option.some.inj h
      subst this
      exact ⟨h1, (h2 rfl).1, (h2 rfl).2⟩
    | some k =>
      exact ih k s' out h1 (fun c hc r hr hcr => h3 k rfl c hc r hr hcr) h hN

end Verif.Lambda

import Verif.Props.Symb
import Mathlib.Algebra.BigOperators.Fin

/-!
C53: blocks and matrices of blocks, element by element.
-/

namespace Verif.Props.Symb

open Verif.Model.Symb Verif.Model.Symb.Blk Verif.Spec.Symb Verif.Lemmas.Symb

variable {N : ℕ} {V : Val N}

theorem entry_add (X Y : M N) (i j : ℕ) : entry (X + Y) i j = entry X i j + entry Y i j := by
  unfold entry
  split_ifs
  · rfl
  · rw [add_zero]

theorem entry_transpose (X : M N) (i j : ℕ) : entry X.transpose i j = entry X j i := by
  unfold entry
  by_cases h : i < N + 1 ∧ j < N + 1
  · rw [dif_pos h, dif_pos ⟨h.2, h.1⟩]
    rfl
  · rw [dif_neg h, dif_neg (fun h' => h ⟨h'.2, h'.1⟩)]

theorem entry_zero (i j : ℕ) : entry (0 : M N) i j = 0 := by
  unfold entry
  split_ifs <;> rfl

theorem entry_norm {s : Dim × Dim} {X : M N} {i j : ℕ} (hi : i < V.size s.1) (hj : j < V.size s.2) :
    entry (norm s X) i j = entry X i j := by
  unfold norm
  split_ifs with hs
  · subst hs
    have h0 : i = 0 := by
      have : V.size (.num 1) = 1 := rfl
      simp only [this] at hi
      omega
    have h1 : j = 0 := by
      have : V.size (.num 1) = 1 := rfl
      simp only [this] at hj
      omega
    subst h0 h1
    unfold entry
    rw [dif_pos ⟨Nat.succ_pos N, Nat.succ_pos N⟩, dif_pos ⟨Nat.succ_pos N, Nat.succ_pos N⟩]
    show (X 0 0 • (1 : M N)) 0 0 = X 0 0
    simp
  · rfl

/-- Outside of its columns a block is zero. -/
theorem entry_outside {a : Blk} (ha : good a) {i : Fin (N + 1)} (hi : i.val < V.size a.rows) {l : Fin (N + 1)}
    (hl : ¬ l.val < V.size a.cols) : den V a i l = 0 := by
  cases hs : a.isScalar
  · have h := (den_plain (V := V) ha hs).2
    rw [← h, proj, Matrix.mul_diagonal, if_neg hl, mul_zero]
  · obtain ⟨x, hx⟩ := den_scalar (V := V) ha hs
    have h1 := isScalar_iff.1 hs
    unfold Blk.rows at hi
    unfold Blk.cols at hl
    rw [h1] at hi hl
    change i.val < 1 at hi
    change ¬ l.val < 1 at hl
    have hne : i ≠ l := by
      intro he
      rw [he] at hi
      exact hl hi
    rw [hx, Matrix.smul_apply, Matrix.one_apply_ne hne, smul_zero]

theorem sum_range_fin (n : ℕ) (hn : n ≤ N + 1) (f : Fin (N + 1) → ℝ) (g : ℕ → ℝ) (hfg : ∀ l : Fin (N + 1), f l = g l.val)
    (hz : ∀ l : Fin (N + 1), ¬ l.val < n → f l = 0) : ∑ l, f l = ∑ l ∈ Finset.range n, g l := by
  rw [Fin.sum_univ_eq_sum_range' f g hfg]
  refine (Finset.sum_subset (fun l hl => ?_) fun l hl hl' => ?_).symm
  · rw [Finset.mem_range] at hl ⊢
    omega
  · rw [Finset.mem_range] at hl hl'
    rw [← hfg ⟨l, hl⟩]
    exact hz ⟨l, hl⟩ hl'
where
  Fin.sum_univ_eq_sum_range' (f : Fin (N + 1) → ℝ) (g : ℕ → ℝ) (hfg : ∀ l : Fin (N + 1), f l = g l.val) :
      ∑ l, f l = ∑ l ∈ Finset.range (N + 1), g l := by
    rw [← Fin.sum_univ_eq_sum_range]
    exact Finset.sum_congr rfl fun l _ => hfg l

theorem mulShape_conf {a b : Blk} (h : a.cols = b.rows) : mulShape a b = some (a.rows, b.cols) := by
  unfold mulShape
  split_ifs with ha hb
  · have e := isScalar_iff.1 ha
    have hc : b.rows = .num 1 := by
      rw [← h]
      unfold Blk.cols
      rw [e]
    have hr : a.rows = .num 1 := by
      unfold Blk.rows
      rw [e]
    rw [hr, ← hc]
  · have e := isScalar_iff.1 hb
    have hc : a.cols = .num 1 := by
      rw [h]
      unfold Blk.rows
      rw [e]
    have hr : b.cols = .num 1 := by
      unfold Blk.cols
      rw [e]
    rw [hr, ← hc]
  · rfl

/-- A product of blocks is the product of the matrices: row times column. -/
theorem C53_dense_mul_partial {a b c : Blk} (ha : good a) (hb : good b) (hc : a.cols = b.rows) (h : times a b = some c)
    (V : Val N) (hs : V.size a.cols ≤ N + 1) {i j : ℕ} (hi : i < V.size a.rows) (hj : j < V.size b.cols)
    (hi' : V.size a.rows ≤ N + 1) (hj' : V.size b.cols ≤ N + 1) :
    entry (den V c) i j = ∑ l ∈ Finset.range (V.size a.cols), entry (den V a) i l * entry (den V b) l j := by
  obtain ⟨-, h2, h3⟩ := C53_mul_partial ha hb (Or.inr (Or.inr hc)) h
  rw [mulShape_conf hc, Option.some.injEq] at h2
  rw [h3, entry_norm (V := V) (by rw [← h2]; exact hi) (by rw [← h2]; exact hj)]
  have hin : i < N + 1 := by omega
  have hjn : j < N + 1 := by omega
  have he : entry (den V a * den V b) i j = ∑ l, den V a ⟨i, hin⟩ l * den V b l ⟨j, hjn⟩ := by
    unfold entry
    rw [dif_pos ⟨hin, hjn⟩, Matrix.mul_apply]
  rw [he]
  refine sum_range_fin _ hs _ _ (fun l => ?_) fun l hl => ?_
  · unfold entry
    rw [dif_pos ⟨hin, l.isLt⟩, dif_pos ⟨l.isLt, hjn⟩]
  · rw [entry_outside ha hi hl, zero_mul]

/-- A sum of blocks is the sum of the matrices, and a transpose the transpose. -/
theorem C53_dense_add_partial {a b c : Blk} (ha : good a) (hb : good b) (h : plus a b = some c) (V : Val N) (i j : ℕ) :
    entry (den V c) i j = entry (den V a) i j + entry (den V b) i j := by
  rw [(C53_add_partial ha hb h).2.2.2, entry_add]

theorem C53_dense_tr_partial {a : Blk} (ha : good a) (V : Val N) (i j : ℕ) :
    entry (den V a.transpose) i j = entry (den V a) j i := by
  rw [(C53_tr_partial ha).2.2, entry_transpose]

/-! ### Matrices of blocks -/

theorem dotM_ok (V : Val N) {s : Dim × Dim} : ∀ (l : List (Blk × Blk)) (acc c : Blk), good acc → acc.shape = s →
    (∀ p ∈ l, good p.1 ∧ good p.2 ∧ p.1.cols = p.2.rows ∧ V.size p.1.cols ≤ N + 1) → dotM acc l = some c →
      V.size s.1 ≤ N + 1 → V.size s.2 ≤ N + 1 →
      good c ∧ c.shape = s ∧ ∀ i j, i < V.size s.1 → j < V.size s.2 → entry (den V c) i j = entry (den V acc) i j +
        (l.map fun p => ∑ k ∈ Finset.range (V.size p.1.cols), entry (den V p.1) i k * entry (den V p.2) k j).sum := by
  intro l
  induction l with
  | nil =>
    intro acc c hg hs _ h _ _
    obtain rfl := Option.some.inj h
    exact ⟨hg, hs, fun i j _ _ => by simp⟩
  | cons p l ih =>
    obtain ⟨a, b⟩ := p
    intro acc c hg hs hp h hn1 hn2
    rw [dotM] at h
    simp only [Option.bind_eq_bind, Option.bind_eq_some_iff] at h
    obtain ⟨x, h1, acc', h2, h3⟩ := h
    obtain ⟨p1, p2, p3, p4⟩ := hp (a, b) (List.mem_cons_self ..)
    obtain ⟨x1, x2, x3⟩ := C53_mul_partial p1 p2 (Or.inr (Or.inr p3)) h1
    rw [mulShape_conf p3, Option.some.injEq] at x2
    obtain ⟨y1, y2, y3, y4⟩ := C53_add_partial hg x1 h2
    have hxs : s = (a.rows, b.cols) := by rw [← hs, y3, ← x2]
    obtain ⟨z1, z2, z3⟩ := ih acc' c y1 (y2.trans hs) (fun q hq => hp q (List.mem_cons_of_mem _ hq)) h3 hn1 hn2
    refine ⟨z1, z2, fun i j hi hj => ?_⟩
    rw [z3 i j hi hj, C53_dense_add_partial hg x1 h2, List.map_cons, List.sum_cons]
    subst hxs
    rw [C53_dense_mul_partial p1 p2 p3 h1 V p4 hi hj hn1 hn2, add_assoc]

/-- A block of a product of matrices of blocks is the sum over the blocks of row and column, hence the block of the product of
the whole matrices. -/
theorem C53_block_mul_partial {m k n : ℕ} {A : BlkMat m (k + 1)} {B : BlkMat (k + 1) n} {r : Fin m} {c : Fin n} {x : Blk}
    (hA : ∀ q, good (A r q)) (hB : ∀ q, good (B q c)) (hc : ∀ q, (A r q).cols = (B q c).rows)
    (h : blockTimes A B r c = some x) (V : Val N) (hs : ∀ q, V.size (A r q).cols ≤ N + 1)
    (hr : V.size (A r 0).rows ≤ N + 1) (hcl : V.size (B 0 c).cols ≤ N + 1) {i j : ℕ} (hi : i < V.size (A r 0).rows)
    (hj : j < V.size (B 0 c).cols) :
    entry (den V x) i j = ∑ q, ∑ l ∈ Finset.range (V.size (A r q).cols), entry (den V (A r q)) i l * entry (den V (B q c)) l j := by
  unfold blockTimes at h
  obtain ⟨-, -, h3⟩ := dotM_ok V _ _ _ (good_c0 (A r 0).rows (B 0 c).cols) rfl (fun p hp => by
    obtain ⟨q, -, rfl⟩ := List.mem_map.1 hp
    exact ⟨hA q, hB q, hc q, hs q⟩) h hr hcl
  rw [h3 i j hi hj, den_c0, entry_zero, zero_add, List.map_map, ← List.ofFn_eq_map, List.sum_ofFn]
  rfl

end Verif.Props.Symb

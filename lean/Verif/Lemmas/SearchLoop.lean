import Verif.Lemmas.Search
/-! # The search loop: invariant, termination, result -/
namespace Verif.Lambda
open Finset

variable {K : Type} [Field K] [LinearOrder K] [IsStrictOrderedRing K] [FloorRing K]

/-- The position of the search: current integers `y` and their places `t` in zigzag order, on the levels
from `k` up. -/
structure PInv (n : Nat) (a : Vec K) (L : Mat K) (D : Vec K) (s : Search K) (y : Nat → Int) (t : Nat → Nat) : Prop where
  hk : s.k < n
  z : ∀ j, s.k ≤ j → j < n → s.zcond j = (y j : K)
  ac : ∀ j, s.k ≤ j → j < n → s.acond j = cond n a L y j
  zg : ∀ j, s.k ≤ j → j < n → (y j : K) = zig (cond n a L y j) (t j)
  st : ∀ j, s.k ≤ j → j < n → s.step j = zstep (cond n a L y j) (t j)
  S : ∀ j, s.k ≤ j → j < n → ∀ c ≤ j,
    s.S j c = ∑ i ∈ Ico (j + 1) n, ((y i : K) - cond n a L y i) * L i c
  di : ∀ j, s.k ≤ j → j < n → s.dist j = above n a L D y j
  le : s.left = cond n a L y s.k - y s.k

def updZ (y : Nat → Int) (j : Nat) (v : Int) : Nat → Int := fun i => if i = j then v else y i
def updN (t : Nat → Nat) (j : Nat) (v : Nat) : Nat → Nat := fun i => if i = j then v else t i

theorem cond_updZ {n : Nat} {a : Vec K} {L : Mat K} {y : Nat → Int} {j : Nat} (v : Int) {i : Nat} (h : j ≤ i) :
    cond n a L (updZ y j v) i = cond n a L y i :=
  cond_congr n a L _ _ _ i le_rfl fun i' h1 _ => by unfold updZ; rw [if_neg (by omega)]

theorem above_updZ {n : Nat} {a : Vec K} {L : Mat K} {D : Vec K} {y : Nat → Int} {j : Nat} (v : Int) {i : Nat}
    (h : j ≤ i) : above n a L D (updZ y j v) i = above n a L D y i :=
  above_congr n a L D _ _ i fun i' h1 _ => by unfold updZ; rw [if_neg (by omega)]

theorem sumS_updZ {n : Nat} {a : Vec K} {L : Mat K} {y : Nat → Int} {j : Nat} (v : Int) {i c : Nat} (h : j ≤ i) :
    ∑ p ∈ Ico (i + 1) n, ((updZ y j v p : K) - cond n a L (updZ y j v) p) * L p c =
    ∑ p ∈ Ico (i + 1) n, ((y p : K) - cond n a L y p) * L p c := by
  apply sum_congr rfl
  intro p hp
  have := mem_Ico.1 hp
  rw [cond_updZ v (by omega)]
  unfold updZ; rw [if_neg (by omega)]

theorem goDown_inv {n : Nat} {a : Vec K} {L : Mat K} {D : Vec K} {s : Search K} {y : Nat → Int} {t : Nat → Nat}
    (h : PInv n a L D s y t) (hk0 : s.k ≠ 0) (nd : K) (hnd : nd = s.dist s.k + s.left * s.left / D s.k) :
    PInv n a L D (goDown L a nd s) (updZ y (s.k - 1) (roundZ (cond n a L y (s.k - 1)))) (updN t (s.k - 1) 0) := by
  have hkn := h.hk
  obtain ⟨q, hq⟩ : ∃ q, s.k = q + 1 := ⟨s.k - 1, by omega⟩
  have hk1 : s.k - 1 = q := by omega
  rw [hk1]
  set v := roundZ (cond n a L y q) with hv
  -- the new row of S
  have hSq : ∀ c ≤ q, s.S (q + 1) c + (s.zcond (q + 1) - s.acond (q + 1)) * L (q + 1) c =
      ∑ i ∈ Ico (q + 1) n, ((y i : K) - cond n a L y i) * L i c := by
    intro c hc
    rw [h.S (q + 1) (by omega) (by omega) c (by omega), h.z (q + 1) (by omega) (by omega),
      h.ac (q + 1) (by omega) (by omega),
      sum_eq_sum_Ico_succ_bot (by omega : q + 1 < n), add_comm]
  have hac : a q + (s.S (q + 1) q + (s.zcond (q + 1) - s.acond (q + 1)) * L (q + 1) q) = cond n a L y q := by
    rw [hSq q le_rfl, ← cond_eq]
  have hgk : (goDown L a nd s).k = q := by unfold goDown; exact hk1
  have hgz : (goDown L a nd s).zcond = setV s.zcond q (round (cond n a L y q)) := by
    unfold goDown; simp only [hk1, le_refl, and_self, if_true, hac]
  have hgac : (goDown L a nd s).acond = setV s.acond q (cond n a L y q) := by
    unfold goDown; simp only [hk1, le_refl, and_self, if_true, hac]
  have hgst : (goDown L a nd s).step = setV s.step q (sgn (cond n a L y q)) := by
    have hsg : ∀ x : K, (if sign x = 0 then 1 else sign x) = sign x := by
      intro x; unfold sign; split_ifs <;> simp_all
    unfold goDown; simp only [hk1, le_refl, and_self, if_true, hac, hsg]; rfl
  have hgd : (goDown L a nd s).dist = setV s.dist q nd := by unfold goDown; simp only [hk1]
  have hgl : (goDown L a nd s).left = cond n a L y q - round (cond n a L y q) := by
    unfold goDown; simp only [hk1, le_refl, and_self, if_true, hac]
  have hgS : ∀ j c, (goDown L a nd s).S j c = if j = q ∧ c ≤ q then
      s.S (q + 1) c + (s.zcond (q + 1) - s.acond (q + 1)) * L (q + 1) c else s.S j c := by
    intro j c; unfold goDown; simp only [hk1]
  constructor
  · rw [hgk]; omega
  · intro j h1 h2
    rw [hgk] at h1; rw [hgz]
    by_cases e : j = q
    · subst e; rw [setV_same]; unfold updZ; rw [if_pos rfl, hv, round_eq]
    · rw [setV_ne _ _ e]; unfold updZ; rw [if_neg e]; exact h.z j (by omega) h2
  · intro j h1 h2
    rw [hgk] at h1; rw [hgac, cond_updZ v h1]
    by_cases e : j = q
    · subst e; rw [setV_same]
    · rw [setV_ne _ _ e]; exact h.ac j (by omega) h2
  · intro j h1 h2
    rw [hgk] at h1; rw [cond_updZ v h1]
    unfold updZ updN
    by_cases e : j = q
    · subst e; rw [if_pos rfl, if_pos rfl, zig_zero, round_eq]
    · rw [if_neg e, if_neg e]; exact h.zg j (by omega) h2
  · intro j h1 h2
    rw [hgk] at h1; rw [hgst, cond_updZ v h1]
    unfold updN
    by_cases e : j = q
    · subst e; rw [setV_same, if_pos rfl, zstep_zero]
    · rw [setV_ne _ _ e, if_neg e]; exact h.st j (by omega) h2
  · intro j h1 h2 c hc
    rw [hgk] at h1; rw [hgS, sumS_updZ v h1]
    by_cases e : j = q
    · subst e; rw [if_pos ⟨rfl, hc⟩]; exact hSq c hc
    · rw [if_neg (by tauto)]; exact h.S j (by omega) h2 c hc
  · intro j h1 h2
    rw [hgk] at h1; rw [hgd, above_updZ v h1]
    by_cases e : j = q
    · subst e
      rw [setV_same, hnd, hq, h.di (j + 1) (by omega) (by omega), above_pred n a L D y (k := j) (by omega), h.le, hq]
    · rw [setV_ne _ _ e]; exact h.di j (by omega) h2
  · rw [hgk, hgl, cond_updZ v le_rfl]
    unfold updZ; rw [if_pos rfl, hv, round_eq]

theorem goDown_before {n : Nat} {a : Vec K} {L : Mat K} {y : Nat → Int} {t : Nat → Nat} {q : Nat} (v : Int)
    (z : Nat → Int) :
    Before n a L (updZ y q v) (updN t q 0) q z ↔ Before n a L y t (q + 1) z := by
  have hup : ∀ i, q < i → updZ y q v i = y i := by intro i hi; unfold updZ; rw [if_neg (by omega)]
  constructor
  · rintro ⟨j, h1, h2, h3, s, h4, h5⟩
    have hj : j ≠ q := by
      intro e; subst e; unfold updN at h4; simp at h4
    unfold updN at h4; rw [if_neg hj] at h4
    exact ⟨j, by omega, h2, fun i hi hin => by rw [h3 i hi hin, hup i (by omega)], s, h4,
      by rw [h5, cond_updZ v h1]⟩
  · rintro ⟨j, h1, h2, h3, s, h4, h5⟩
    exact ⟨j, by omega, h2, fun i hi hin => by rw [h3 i hi hin, hup i (by omega)], s,
      by unfold updN; rw [if_neg (by omega)]; exact h4, by rw [h5, cond_updZ v (by omega)]⟩

theorem nextInt_inv {n : Nat} {a : Vec K} {L : Mat K} {D : Vec K} {s : Search K} {y : Nat → Int} {t : Nat → Nat}
    (h : PInv n a L D s y t) {q : Nat} (hq : s.k ≤ q) (hqn : q < n) :
    ∃ v : Int, (v : K) = zig (cond n a L y q) (t q + 1) ∧
      PInv n a L D (nextInt q s) (updZ y q v) (updN t q (t q + 1)) := by
  obtain ⟨v, hv⟩ := zig_int (cond n a L y q) (t q + 1)
  have hnew : s.zcond q + s.step q = (v : K) := by
    rw [h.z q hq hqn, h.st q hq hqn, h.zg q hq hqn, ← zig_succ, hv]
  refine ⟨v, hv.symm, ?_⟩
  constructor
  · exact hqn
  · intro j h1 h2
    have h1 : q ≤ j := h1
    unfold nextInt updZ; dsimp only
    by_cases e : j = q
    · subst e; rw [setV_same, if_pos rfl, hnew]
    · rw [setV_ne _ _ e, if_neg e]; exact h.z j (by omega) h2
  · intro j h1 h2
    have h1 : q ≤ j := h1
    rw [cond_updZ v h1]; exact h.ac j (by omega) h2
  · intro j h1 h2
    have h1 : q ≤ j := h1
    rw [cond_updZ v h1]; unfold updZ updN
    by_cases e : j = q
    · subst e; rw [if_pos rfl, if_pos rfl, hv]
    · rw [if_neg e, if_neg e]; exact h.zg j (by omega) h2
  · intro j h1 h2
    have h1 : q ≤ j := h1
    rw [cond_updZ v h1]; unfold nextInt updN; dsimp only
    by_cases e : j = q
    · subst e; rw [setV_same, if_pos rfl, zstep_succ, h.st j hq hqn]
    · rw [setV_ne _ _ e, if_neg e]; exact h.st j (by omega) h2
  · intro j h1 h2 c hc
    have h1 : q ≤ j := h1
    rw [sumS_updZ v h1]; exact h.S j (by omega) h2 c hc
  · intro j h1 h2
    have h1 : q ≤ j := h1
    rw [above_updZ v h1]; exact h.di j (by omega) h2
  · show s.acond q - (s.zcond q + s.step q) = _
    have : (nextInt q s).k = q := rfl
    rw [this, cond_updZ v le_rfl, hnew, h.ac q hq hqn]
    unfold updZ; rw [if_pos rfl]

/-- After the last level: the current point joins the visited ones. -/
theorem next_before_store {n : Nat} {a : Vec K} {L : Mat K} {y : Nat → Int} {t : Nat → Nat} (hn : 0 < n)
    (v : Int) (hy : (y 0 : K) = zig (cond n a L y 0) (t 0)) (z : Nat → Int) :
    Before n a L (updZ y 0 v) (updN t 0 (t 0 + 1)) 0 z ↔
      Before n a L y t 0 z ∨ ∀ r < n, z r = y r := by
  have hup : ∀ i, 0 < i → updZ y 0 v i = y i := by intro i hi; unfold updZ; rw [if_neg (by omega)]
  constructor
  · rintro ⟨j, h1, h2, h3, s, h4, h5⟩
    rw [cond_updZ v h1] at h5
    have h3' : ∀ i, j < i → i < n → z i = y i := fun i hi hin => by rw [h3 i hi hin, hup i (by omega)]
    by_cases e : j = 0
    · subst e
      unfold updN at h4; rw [if_pos rfl] at h4
      rcases Nat.lt_succ_iff_lt_or_eq.1 h4 with h | h
      · exact Or.inl ⟨0, le_rfl, hn, h3', s, h, h5⟩
      · right
        intro r hr
        rcases Nat.eq_zero_or_pos r with hr0 | hr0
        · subst hr0; rw [h, ← hy] at h5; exact_mod_cast h5
        · exact h3' r hr0 hr
    · unfold updN at h4; rw [if_neg e] at h4
      exact Or.inl ⟨j, h1, h2, h3', s, h4, h5⟩
  · rintro (⟨j, h1, h2, h3, s, h4, h5⟩ | h)
    · refine ⟨j, h1, h2, fun i hi hin => by rw [h3 i hi hin, hup i (by omega)], s, ?_, by rw [h5, cond_updZ v h1]⟩
      unfold updN
      by_cases e : j = 0
      · subst e; rw [if_pos rfl]; omega
      · rw [if_neg e]; exact h4
    · refine ⟨0, le_rfl, hn, fun i hi hin => by rw [h i hin, hup i hi], t 0, ?_, ?_⟩
      · unfold updN; rw [if_pos rfl]; omega
      · rw [h 0 hn, hy, cond_updZ v le_rfl]

theorem not_before_self {n : Nat} {a : Vec K} {L : Mat K} {y : Nat → Int} {t : Nat → Nat} {k : Nat}
    (hzg : ∀ j, k ≤ j → j < n → (y j : K) = zig (cond n a L y j) (t j)) : ¬ Before n a L y t k y := by
  rintro ⟨j, h1, h2, -, s, h4, h5⟩
  have := zig_inj ((hzg j h1 h2).symm.trans h5)
  omega

/-- Below a level that is given up, every remaining point is too far. -/
theorem pruned {n : Nat} {a : Vec K} {L : Mat K} {D : Vec K} {s : Search K} {y : Nat → Int} {t : Nat → Nat}
    (hd : ∀ i < n, 0 < D i) (h : PInv n a L D s y t) (hfar : s.chi2 ≤ s.dist s.k + s.left * s.left / D s.k)
    (z : Nat → Int) (hz : ∀ i, s.k < i → i < n → z i = y i) :
    (∃ p < t s.k, (z s.k : K) = zig (cond n a L y s.k) p) ∨ s.chi2 ≤ fdist n a L D z := by
  obtain ⟨p, hp⟩ := zig_surj (cond n a L y s.k) (z s.k)
  rcases Nat.lt_or_ge p (t s.k) with hlt | hge
  · exact Or.inl ⟨p, hlt, hp⟩
  · right
    have h1 := le_fdist n a L D z hd h.hk
    have h2 : cond n a L z s.k = cond n a L y s.k := cond_congr n a L z y _ s.k le_rfl hz
    have h3 : above n a L D z s.k = above n a L D y s.k := above_congr n a L D z y s.k hz
    rw [h2, h3, hp] at h1
    have h4 := zig_sq_mono (cond n a L y s.k) hge
    rw [h.di s.k le_rfl h.hk, h.le, h.zg s.k le_rfl h.hk] at hfar
    have h5 := div_le_div_of_nonneg_right h4 (hd s.k h.hk).le
    linarith

theorem up_before {n : Nat} {a : Vec K} {L : Mat K} {D : Vec K} {s : Search K} {y : Nat → Int} {t : Nat → Nat}
    (hd : ∀ i < n, 0 < D i) (h : PInv n a L D s y t) (hk : s.k + 1 < n)
    (hfar : s.chi2 ≤ s.dist s.k + s.left * s.left / D s.k) (v : Int) :
    (∀ z, Before n a L y t s.k z →
      Before n a L (updZ y (s.k + 1) v) (updN t (s.k + 1) (t (s.k + 1) + 1)) (s.k + 1) z) ∧
    (∀ z, Before n a L (updZ y (s.k + 1) v) (updN t (s.k + 1) (t (s.k + 1) + 1)) (s.k + 1) z →
      Before n a L y t s.k z ∨ s.chi2 ≤ fdist n a L D z) := by
  have hup : ∀ i, s.k + 1 < i → updZ y (s.k + 1) v i = y i := by
    intro i hi; unfold updZ; rw [if_neg (by omega)]
  constructor
  · rintro z ⟨j, h1, h2, h3, p, h4, h5⟩
    by_cases e : j = s.k
    · subst e
      refine ⟨s.k + 1, le_rfl, hk, fun i hi hin => by rw [h3 i (by omega) hin, hup i hi], t (s.k + 1), ?_, ?_⟩
      · unfold updN; rw [if_pos rfl]; omega
      · rw [h3 _ (by omega) hk, cond_updZ v le_rfl]; exact h.zg _ (by omega) hk
    · refine ⟨j, by omega, h2, fun i hi hin => by rw [h3 i hi hin, hup i (by omega)], p, ?_,
        by rw [h5, cond_updZ v (by omega)]⟩
      unfold updN
      split_ifs with e'
      · subst e'; omega
      · exact h4
  · rintro z ⟨j, h1, h2, h3, p, h4, h5⟩
    rw [cond_updZ v h1] at h5
    have h3' : ∀ i, j < i → i < n → z i = y i := fun i hi hin => by rw [h3 i hi hin, hup i (by omega)]
    unfold updN at h4
    by_cases e : j = s.k + 1
    · subst e
      rw [if_pos rfl] at h4
      rcases Nat.lt_succ_iff_lt_or_eq.1 h4 with hlt | heq
      · exact Or.inl ⟨s.k + 1, by omega, h2, h3', p, hlt, h5⟩
      · rw [heq, ← h.zg _ (by omega) hk] at h5
        have hz : ∀ i, s.k < i → i < n → z i = y i := by
          intro i hi hin
          by_cases e : i = s.k + 1
          · subst e; exact_mod_cast h5
          · exact h3' i (by omega) hin
        rcases pruned hd h hfar z hz with ⟨p', hp', hz'⟩ | hz'
        · exact Or.inl ⟨s.k, le_rfl, h.hk, hz, p', hp', hz'⟩
        · exact Or.inr hz'
    · rw [if_neg e] at h4
      exact Or.inl ⟨j, by omega, h2, h3', p, h4, h5⟩

/-! ### Termination -/

/-- Weights of the levels in the measure. -/
def weight (T : Nat → Nat) : Nat → Nat
  | 0 => 1
  | k + 1 => T k * weight T k + 2

/-- What is left to do. -/
def todo (n : Nat) (T t : Nat → Nat) (k : Nat) : Nat :=
  (∑ j ∈ range n, (if k ≤ j then T j - t j else T j) * weight T j) + k

theorem todo_down {n : Nat} {T t : Nat → Nat} {q : Nat} :
    todo n T (updN t q 0) q < todo n T t (q + 1) := by
  unfold todo
  have : ∑ j ∈ range n, (if q ≤ j then T j - updN t q 0 j else T j) * weight T j =
      ∑ j ∈ range n, (if q + 1 ≤ j then T j - t j else T j) * weight T j := by
    apply sum_congr rfl
    intro j _
    congr 1
    unfold updN
    split_ifs <;> omega
  omega

theorem sum_change {n : Nat} {f g : Nat → Nat} {p : Nat} (hp : p < n) (ho : ∀ j < n, j ≠ p → f j = g j) :
    ∑ j ∈ range n, f j + g p = ∑ j ∈ range n, g j + f p := by
  rw [← add_sum_erase _ f (mem_range.2 hp), ← add_sum_erase _ g (mem_range.2 hp)]
  have : ∑ j ∈ (range n).erase p, f j = ∑ j ∈ (range n).erase p, g j := by
    apply sum_congr rfl
    intro j hj
    have := mem_erase.1 hj
    exact ho j (mem_range.1 this.2) this.1
  omega

theorem todo_store {n : Nat} {T t : Nat → Nat} (hn : 0 < n) (h : t 0 < T 0) :
    todo n T (updN t 0 (t 0 + 1)) 0 < todo n T t 0 := by
  unfold todo
  have := sum_change (n := n) (p := 0)
    (f := fun j => (if 0 ≤ j then T j - updN t 0 (t 0 + 1) j else T j) * weight T j)
    (g := fun j => (if 0 ≤ j then T j - t j else T j) * weight T j) hn (by
      intro j _ hj; unfold updN; simp only [if_neg hj])
  simp only [Nat.zero_le, if_true, weight, mul_one] at this ⊢
  unfold updN at this ⊢
  simp only [if_true] at this
  omega

theorem todo_up {n : Nat} {T t : Nat → Nat} {k : Nat} (hk : k + 1 < n) (h : t k ≤ T k)
    (h1 : t (k + 1) < T (k + 1)) :
    todo n T (updN t (k + 1) (t (k + 1) + 1)) (k + 1) < todo n T t k := by
  unfold todo
  -- change level k + 1, then level k
  have e1 := sum_change (n := n) (p := k + 1)
    (f := fun j => (if k + 1 ≤ j then T j - updN t (k + 1) (t (k + 1) + 1) j else T j) * weight T j)
    (g := fun j => (if k + 1 ≤ j then T j - t j else T j) * weight T j) hk (by
      intro j _ hj; unfold updN; simp only [if_neg hj])
  have e2 := sum_change (n := n) (p := k)
    (f := fun j => (if k + 1 ≤ j then T j - t j else T j) * weight T j)
    (g := fun j => (if k ≤ j then T j - t j else T j) * weight T j) (by omega) (by
      intro j _ hj
      congr 1
      split_ifs <;> omega)
  have n1 : ¬ k + 1 ≤ k := by omega
  simp only [le_refl, if_true, n1, if_false] at e1 e2
  have hw : weight T (k + 1) = T k * weight T k + 2 := rfl
  have hu : updN t (k + 1) (t (k + 1) + 1) (k + 1) = t (k + 1) + 1 := by unfold updN; simp
  rw [hu] at e1
  have e3 : (T (k + 1) - t (k + 1)) * weight T (k + 1) =
      (T (k + 1) - (t (k + 1) + 1)) * weight T (k + 1) + weight T (k + 1) := by
    have : T (k + 1) - t (k + 1) = (T (k + 1) - (t (k + 1) + 1)) + 1 := by omega
    rw [this, Nat.add_mul, Nat.one_mul]
  have e4 : (T k - t k) * weight T k ≤ T k * weight T k := Nat.mul_le_mul_right _ (by omega)
  omega

/-- Far enough out in zigzag order the distance exceeds the initial bound. -/
theorem exists_limit (d : K) (hd : 0 < d) : ∃ T : Nat, ∀ (a : K) (t : Nat), T ≤ t →
    (10 : K) ^ 18 ≤ (a - zig a t) * (a - zig a t) / d := by
  obtain ⟨T, hT⟩ := exists_nat_gt (4 * 10 ^ 18 * d + 1)
  refine ⟨T, fun a t ht => ?_⟩
  rw [le_div_iff₀ hd]
  have h1 := half_le_abs_zig a t
  have htT : (T : K) ≤ t := Nat.cast_le.2 ht
  have h10 : (0 : K) < 10 ^ 18 * d := mul_pos (by positivity) hd
  have ht1 : (1 : K) ≤ t := by linarith
  rw [← abs_mul_abs_self]
  have h2 : (t : K) / 2 * ((t : K) / 2) ≤ |a - zig a t| * |a - zig a t| :=
    mul_self_le_mul_self (by linarith) h1
  nlinarith

/-- The loop ends, and everything has been dealt with. -/
theorem searchLoop_spec {n m : Nat} {a : Vec K} {L : Mat K} {D : Vec K} (hm : 0 < m) (hd : ∀ i < n, 0 < D i)
    (T : Nat → Nat) (hT : ∀ i < n, ∀ (x : K) (t : Nat), T i ≤ t → (10 : K) ^ 18 ≤ (x - zig x t) * (x - zig x t) / D i) :
    ∀ (fuel : Nat) (s : Search K) (y : Nat → Int) (t : Nat → Nat) (full : Bool),
    PInv n a L D s y t → CInv n m a L D (Before n a L y t s.k) s full →
    t s.k ≤ T s.k → (∀ j, s.k < j → j < n → t j < T j) → todo n T t s.k < fuel →
    ∃ out full', searchLoop n m L D a fuel s = some out ∧
      CInv n m a L D (fun _ => True) out full' := by
  intro fuel
  induction fuel with
  | zero => intro s y t full _ _ _ _ h; omega
  | succ fuel ih =>
    intro s y t full hp hc ht1 ht2 hf
    unfold searchLoop
    dsimp only
    set nd := s.dist s.k + s.left * s.left / D s.k with hnd
    have hab : 0 ≤ s.dist s.k := by
      rw [hp.di s.k le_rfl hp.hk]
      unfold above
      exact sum_nonneg fun j hj => div_nonneg (mul_self_nonneg _) (hd j (mem_Ico.1 hj).2).le
    have hlim : nd < s.chi2 → t s.k < T s.k := by
      intro hlt
      by_contra hcon
      have h1 := hT s.k hp.hk (cond n a L y s.k) (t s.k) (by omega)
      rw [← hp.zg s.k le_rfl hp.hk, ← hp.le] at h1
      have := hc.small
      linarith
    split_ifs with hlt hk0 hend
    · -- move down
      obtain ⟨q, hq⟩ : ∃ q, s.k = q + 1 := ⟨s.k - 1, by omega⟩
      have hk1 : s.k - 1 = q := by omega
      have hp' := goDown_inv hp hk0 nd hnd
      rw [hk1] at hp'
      have hgk : (goDown L a nd s).k = q := by unfold goDown; exact hk1
      refine ih _ _ _ full hp' ?_ ?_ ?_ ?_
      · rw [hgk]
        have hc' : CInv n m a L D (Before n a L y t s.k) (goDown L a nd s) full :=
          ⟨hc.pt, hc.ne, hc.filling, hc.filled, hc.small, hc.normle, hc.cover⟩
        refine hc'.mono (fun z hz => ?_) (fun z hz => Or.inl ?_)
        · rw [hq] at hz; exact (goDown_before _ z).2 hz
        · rw [hq]; exact (goDown_before _ z).1 hz
      · rw [hgk]; unfold updN; simp
      · rw [hgk]
        intro j h1 h2
        unfold updN; rw [if_neg (by omega)]
        by_cases e : j = s.k
        · subst e; exact hlim hlt
        · exact ht2 j (by omega) h2
      · rw [hgk]
        have := todo_down (n := n) (T := T) (t := t) (q := q)
        rw [hq] at hf; omega
    · -- store
      have hk0 : s.k = 0 := by omega
      have hn : 0 < n := by have := hp.hk; omega
      have hp2 : PInv n a L D (store m nd s) y t := by
        have e1 : (store m nd s).k = s.k := by unfold store; split <;> rfl
        have e2 : (store m nd s).zcond = s.zcond := by unfold store; split <;> rfl
        have e3 : (store m nd s).acond = s.acond := by unfold store; split <;> rfl
        have e4 : (store m nd s).step = s.step := by unfold store; split <;> rfl
        have e5 : (store m nd s).S = s.S := by unfold store; split <;> rfl
        have e6 : (store m nd s).dist = s.dist := by unfold store; split <;> rfl
        have e7 : (store m nd s).left = s.left := by unfold store; split <;> rfl
        constructor
        · rw [e1]; exact hp.hk
        · rw [e1, e2]; exact hp.z
        · rw [e1, e3]; exact hp.ac
        · rw [e1]; exact hp.zg
        · rw [e1, e4]; exact hp.st
        · rw [e1, e5]; exact hp.S
        · rw [e1, e6]; exact hp.di
        · rw [e1, e7]; exact hp.le
      have hsk : (store m nd s).k = 0 := by unfold store; split <;> exact hk0
      obtain ⟨v, hv, hp3⟩ := nextInt_inv hp2 (q := 0) (by omega) hn
      have hself := hp.zg
      have hndF : nd = fdist n a L D y := by
        rw [fdist_zero n a L D y hn, hnd, hp.di s.k le_rfl hp.hk, hp.le, hk0]
      obtain ⟨full', hc2⟩ := hc.store (B' := Before n a L (updZ y 0 v) (updN t 0 (t 0 + 1)) 0) hm y
        (fun r hr => hp.z r (by omega) hr)
        (fun z => by rw [hk0]; exact next_before_store hn v (hp.zg 0 (by omega) hn) z)
        (fun z hz => by
          by_contra hcon
          push Not at hcon
          exact not_before_self hp.zg (hz.congr hcon)) nd hndF hlt
      refine ih (nextInt 0 (store m nd s)) _ _ full' hp3 ⟨hc2.pt, hc2.ne, hc2.filling, hc2.filled, hc2.small, hc2.normle, hc2.cover⟩ ?_ ?_ ?_
      · show updN t 0 (t 0 + 1) 0 ≤ T 0
        have := hlim hlt
        rw [hk0] at this
        unfold updN; simp only [if_true]; omega
      · intro j h1 h2
        have h1 : 0 < j := h1
        unfold updN; rw [if_neg (by omega)]
        exact ht2 j (by omega) h2
      · show todo n T _ 0 < fuel
        have h1 := hlim hlt
        rw [hk0] at h1 hf
        have := todo_store hn h1
        omega
    · -- the end
      refine ⟨s, full, rfl, hc.mono (fun _ _ => trivial) fun z _ => ?_⟩
      have hz : ∀ i, s.k < i → i < n → z i = y i := by intro i h1 h2; omega
      rcases pruned hd hp (not_lt.1 hlt) z hz with ⟨p, h1, h2⟩ | h1
      · exact Or.inl ⟨s.k, le_rfl, hp.hk, hz, p, h1, h2⟩
      · exact Or.inr h1
    · -- move up
      have hkn : s.k + 1 < n := by have := hp.hk; omega
      obtain ⟨v, hv, hp3⟩ := nextInt_inv hp (q := s.k + 1) (by omega) hkn
      have hub := up_before hd hp hkn (not_lt.1 hlt) v
      have hc2 := hc.mono hub.1 hub.2
      refine ih (nextInt (s.k + 1) s) _ _ full hp3 ⟨hc2.pt, hc2.ne, hc2.filling, hc2.filled, hc2.small, hc2.normle, hc2.cover⟩ ?_ ?_ ?_
      · show updN t (s.k + 1) (t (s.k + 1) + 1) (s.k + 1) ≤ T (s.k + 1)
        have := ht2 (s.k + 1) (by omega) hkn
        unfold updN; simp only [if_true]; omega
      · intro j h1 h2
        have h1 : s.k + 1 < j := h1
        unfold updN; rw [if_neg (by omega)]
        exact ht2 j (by omega) h2
      · show todo n T _ (s.k + 1) < fuel
        have := todo_up hkn ht1 (ht2 (s.k + 1) (by omega) hkn)
        omega

theorem init_inv {n m : Nat} {a : Vec K} {L : Mat K} {D : Vec K} (hn : 0 < n) :
    PInv n a L D (searchInit n m a) (fun _ => roundZ (a (n - 1))) (fun _ => 0) := by
  have hj : ∀ j, n - 1 ≤ j → j < n → j = n - 1 := by omega
  have hcond : cond n a L (fun _ => roundZ (a (n - 1))) (n - 1) = a (n - 1) := by
    rw [cond_eq, Ico_eq_empty (by omega)]; simp
  have hsg : ∀ x : K, (if sign x = 0 then 1 else sign x) = sign x := by
    intro x; unfold sign; split_ifs <;> simp_all
  constructor
  · show n - 1 < n; omega
  · intro j h1 h2; rw [hj j h1 h2]; unfold searchInit; dsimp only; rw [setV_same, round_eq]
  · intro j h1 h2; rw [hj j h1 h2, hcond]; unfold searchInit; dsimp only; rw [setV_same]
  · intro j h1 h2; rw [hj j h1 h2, hcond, zig_zero, round_eq]
  · intro j h1 h2; rw [hj j h1 h2, hcond, zstep_zero]; unfold searchInit; dsimp only
    rw [setV_same, hsg]; rfl
  · intro j h1 h2 c _; rw [hj j h1 h2, Ico_eq_empty (by omega)]; rfl
  · intro j h1 h2; unfold above; rw [hj j h1 h2, Ico_eq_empty (by omega)]; rfl
  · show a (n - 1) - round (a (n - 1)) = _
    have : (searchInit n m a).k = n - 1 := rfl
    rw [this, hcond, round_eq]

/-- The search ends for every input, and what it has stored is right. -/
theorem search_total {n m : Nat} {a : Vec K} {L : Mat K} {D : Vec K} (hn : 0 < n) (hm : 0 < m)
    (hd : ∀ i < n, 0 < D i) : ∃ fuel0, ∀ fuel, fuel0 ≤ fuel →
    ∃ out full, searchLoop n m L D a fuel (searchInit n m a) = some out ∧
      CInv n m a L D (fun _ => True) out full := by
  classical
  have hex : ∀ i, ∃ T : Nat, i < n → ∀ (x : K) (t : Nat), T ≤ t →
      (10 : K) ^ 18 ≤ (x - zig x t) * (x - zig x t) / D i := by
    intro i
    by_cases h : i < n
    · obtain ⟨T, hT⟩ := exists_limit (D i) (hd i h)
      exact ⟨T, fun _ => hT⟩
    · exact ⟨0, fun h' => absurd h' h⟩
  choose T hT using hex
  refine ⟨todo n T (fun _ => 0) (n - 1) + 1, fun fuel hf => ?_⟩
  refine searchLoop_spec hm hd T hT fuel _ _ _ false (init_inv hn) ?_ (Nat.zero_le _) ?_ ?_
  · constructor
    · simp only [Bool.false_eq_true, if_false]; intro c hc; exact absurd hc (Nat.not_lt_zero c)
    · simp only [Bool.false_eq_true, if_false]; intro c hc; exact absurd hc (Nat.not_lt_zero c)
    · intro _; exact ⟨rfl, hm, rfl⟩
    · intro h; cases h
    · exact le_rfl
    · simp only [Bool.false_eq_true, if_false]; intro c hc; exact absurd hc (Nat.not_lt_zero c)
    · rintro z ⟨j, -, -, -, s, hs, -⟩; exact absurd hs (Nat.not_lt_zero s)
  · intro j h1 h2
    have h1 : n - 1 < j := h1
    omega
  · show todo n T _ (n - 1) < fuel
    omega

end Verif.Lambda

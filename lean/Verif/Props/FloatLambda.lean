import Verif.Lemmas.FloatLambda
import Mathlib.Tactic.FinCases
/-!
# C148: ambiguity resolution with rounding

C31-C33 are about exact arithmetic.  Whatever the arithmetic does, the loop of the decorrelation ends, and what it ends
with passes the test of the loop everywhere; in doubles the transformation, the candidates and the fix are whole numbers
for every rounding, and they are the exact ones as long as they stay below `2^53`.
-/
namespace Verif.Props.FloatLambda
open Verif Verif.FLambda Verif.Binary64

variable {V W : Type}

/-! ### The decorrelation ends -/

/-- **C148.** If the values of `D` stay in a set on which `<` is well-founded, the decorrelation ends. -/
theorem C148_terminates (o : Ops V W) (P : V → Prop) (wf : WellFounded fun a b : {x // P x} => o.lt a.1 b.1 = true)
    (hd : ∀ d l e, P d → P e → P (o.delta d l e)) (hm : ∀ d e f, P d → P e → P f → P (o.mul (o.eta d e) f))
    (N k1 : Nat) (s : Red V W) (hs : ∀ i, P (s.D i)) : ∃ fuel t, reduceLoop o N fuel k1 s = some t := by
  let lex := Pi.Lex (β := fun _ : Fin N => {x // P x}) (fun i j : Fin N => j < i)
    (fun {i} (a b : {x // P x}) => o.lt a.1 b.1 = true)
  have hw : WellFounded lex := by
    haveI : IsStrictTotalOrder (Fin N) (fun i j => j < i) := inferInstanceAs (IsStrictTotalOrder (Fin N) (· > ·))
    exact Pi.Lex.wellFounded (fun i j : Fin N => j < i) (fun _ => wf)
  have key : ∀ v : Fin N → {x // P x}, ∀ k1 (s : Red V W), (∀ i, P (s.D i)) → (∀ i : Fin N, (v i).1 = s.D i) →
      ∃ fuel t, reduceLoop o N fuel k1 s = some t := by
    intro v
    induction v using hw.induction with
    | _ v ih =>
      intro k1 s hs hv
      rcases h : sweep o N k1 (N - 1) s with ⟨_ | k, t⟩
      · exact ⟨1, t, by simp [reduceLoop, h]⟩
      · obtain ⟨h1, h2, h3, ⟨l, h4⟩, h5, h6⟩ := sweep_swap o N k1 (N - 1) s t k h
        have hk1 : P (t.D (k + 1)) := by rw [h4]; exact hd _ _ _ (hs k) (hs (k + 1))
        have ht : ∀ i, P (t.D i) := by
          intro i
          rcases lt_trichotomy i (k + 1) with a | a | a
          · rcases Nat.lt_or_ge i k with b | b
            · rw [h6 i b]; exact hs i
            · obtain rfl : i = k := by omega
              rw [h5]; exact hm _ _ _ (hs i) hk1 (hs (i + 1))
          · rw [a]; exact hk1
          · rw [h2 i a]; exact hs i
        obtain ⟨fuel, u, hu⟩ := ih (fun i => ⟨t.D i, ht i⟩) (by
          refine ⟨⟨k + 1, by omega⟩, ?_, ?_⟩
          · intro j hj
            apply Subtype.ext
            rw [hv j]
            exact h2 j hj
          · simp only [hv]; exact h3) k t ht (fun i => rfl)
        exact ⟨fuel + 1, u, by simp [reduceLoop, h, hu]⟩
  exact key (fun i => ⟨s.D i, hs i⟩) k1 s hs (fun i => rfl)

/-- **C148.** So it ends with any arithmetic on finitely many numbers (as those of 64 bits, with infinities and NaNs)
in which `<` is irreflexive and transitive; nothing else need be right. -/
theorem C148_terminates_finite [Finite V] (o : Ops V W) (hi : ∀ a, o.lt a a = false)
    (ht : ∀ a b c, o.lt a b = true → o.lt b c = true → o.lt a c = true) (N k1 : Nat) (s : Red V W) :
    ∃ fuel t, reduceLoop o N fuel k1 s = some t := by
  refine C148_terminates o (fun _ => True) ?_ (fun _ _ _ _ _ => trivial) (fun _ _ _ _ _ _ => trivial) N k1 s
    (fun _ => trivial)
  haveI : IsTrans {_x : V // True} (fun a b => o.lt a.1 b.1 = true) := ⟨fun a b c => ht a.1 b.1 c.1⟩
  haveI : Std.Irrefl (fun a b : {_x : V // True} => o.lt a.1 b.1 = true) := ⟨fun a => by simp [hi]⟩
  exact Finite.wellFounded_of_trans_of_irrefl _

/-- Non-negative doubles are multiples of the least one. -/
theorem F_wf : WellFounded fun a b : {x : ℚ // F x ∧ 0 ≤ x} => decide (a.1 < b.1) = true := by
  have hint : ∀ a : {x : ℚ // F x ∧ 0 ≤ x}, ∃ n : ℕ, a.1 * (2 : ℚ) ^ (1074 : Int) = n := by
    rintro ⟨x, ⟨m, e, -, he, hx⟩, h0⟩
    dsimp only
    obtain ⟨j, hj⟩ : ∃ j : ℕ, e + 1074 = j := ⟨(e + 1074).toNat, by omega⟩
    have h1 : x * (2 : ℚ) ^ (1074 : Int) = ((m * 2 ^ j : Int) : ℚ) := by
      rw [hx, mul_assoc, ← zpow_add₀ (by norm_num : (2 : ℚ) ≠ 0), hj, zpow_natCast]
      push_cast; rfl
    have h2 : (0 : ℚ) ≤ ((m * 2 ^ j : Int) : ℚ) := by rw [← h1]; exact mul_nonneg h0 (two_zpow_pos _).le
    have h3 : 0 ≤ m * 2 ^ j := by exact_mod_cast h2
    refine ⟨(m * 2 ^ j).toNat, ?_⟩
    rw [h1]
    have : ((m * 2 ^ j).toNat : Int) = m * 2 ^ j := Int.toNat_of_nonneg h3
    exact_mod_cast this.symm
  choose n hn using hint
  refine Subrelation.wf (r := fun a b => n a < n b) ?_ (InvImage.wf n Nat.lt_wfRel.wf)
  intro a b h
  have h' : a.1 < b.1 := of_decide_eq_true h
  have : (n a : ℚ) < n b := by
    rw [← hn, ← hn]; exact mul_lt_mul_of_pos_right h' (two_zpow_pos _)
  exact_mod_cast this

theorem r_nonneg {r : ℚ → ℚ} (hr : Nearest r) {x : ℚ} (h : 0 ≤ x) : 0 ≤ r x :=
  hr.ge_of_ge (by simpa using F_int (n := 0) (by norm_num)) h

/-- **C148.** In particular with finite doubles: every rounding to nearest, every factor `L`, every non-negative `D`. -/
theorem C148_terminates_doubles {r : ℚ → ℚ} (hr : Nearest r) (N k1 : Nat) (s : Red ℚ ℚ)
    (hs : ∀ i, F (s.D i) ∧ 0 ≤ s.D i) : ∃ fuel t, reduceLoop (dops r) N fuel k1 s = some t := by
  refine C148_terminates (dops r) (fun x => F x ∧ 0 ≤ x) F_wf ?_ ?_ N k1 s hs
  · intro d l e hd he
    refine ⟨hr.mem _, r_nonneg hr (add_nonneg hd.2 (r_nonneg hr (mul_nonneg (r_nonneg hr (mul_self_nonneg l)) he.2)))⟩
  · intro d e f hd he hf
    exact ⟨hr.mem _, r_nonneg hr (mul_nonneg (r_nonneg hr (div_nonneg hd.2 he.2)) hf.2)⟩

/-- **C148.** What it ends with: no pair of neighbours would be swapped by the test of the loop, however wrong the
numbers are. -/
theorem C148_reduced (o : Ops V W) (N : Nat) (fuel k1 : Nat) (s t : Red V W)
    (e : reduceLoop o N fuel k1 s = some t) (k : Nat) (hk : k + 1 < N) :
    o.lt (o.delta (t.D k) (t.L (k + 1) k) (t.D (k + 1))) (t.D (k + 1)) = false := by
  induction fuel generalizing k1 s with
  | zero => simp [reduceLoop] at e
  | succ n ih =>
    unfold reduceLoop at e
    rcases h : sweep o N k1 (N - 1) s with ⟨_ | k', u⟩
    · rw [h] at e
      simp only [Option.some.injEq] at e
      subst e
      exact (sweep_none o N k1 (N - 1) s u h).2.2 k (by omega)
    · rw [h] at e; exact ih _ _ e

/-! ### The exact model -/

/-- The arithmetic of `Model/Lambda`. -/
def exact (K : Type) [Field K] [LinearOrder K] [IsStrictOrderedRing K] [FloorRing K] : Ops K K where
  lt a b := decide (a < b)
  round := Lambda.round
  ne0 x := decide (x ≠ 0)
  mulSub x mu y := x - mu * y
  col mu z y := z - mu * y
  delta d l e := d + l * l * e
  lambda e l d := e * l / d
  eta d e := d / e
  mul a b := a * b
  row0 l x y := -l * x + y
  row1 e x l y := e * x + l * y

section Exact
variable {K : Type} [Field K] [LinearOrder K] [IsStrictOrderedRing K] [FloorRing K]

/-- The state of the exact model. -/
def back (s : Red K K) : Lambda.Red K := ⟨s.L, s.D, s.a, s.Z⟩

theorem gauss_exact (i j : Nat) (s : Red K K) : back (gauss (exact K) i j s) = Lambda.gauss i j (back s) := by
  unfold gauss Lambda.gauss
  by_cases h : Lambda.round (s.L i j) = 0
  · simp [exact, back, h]
  · simp only [exact, back, h, ne_eq, not_false_eq_true, decide_true, if_true]
    rfl

theorem column_exact (N k : Nat) (s : Red K K) : back (gaussColumn (exact K) N k s) = Lambda.gaussColumn N k (back s) := by
  unfold gaussColumn Lambda.gaussColumn
  generalize List.range (N - (k + 1)) = l
  induction l generalizing s with
  | nil => rfl
  | cons i l ih => rw [List.foldl_cons, List.foldl_cons, ih, gauss_exact]

theorem sweep_exact (N k1 n : Nat) (s : Red K K) :
    ((sweep (exact K) N k1 n s).1, back (sweep (exact K) N k1 n s).2) = Lambda.sweep N k1 n (back s) := by
  induction n generalizing s with
  | zero => rfl
  | succ k ih =>
    unfold sweep Lambda.sweep
    have h : back (if k ≤ k1 then gaussColumn (exact K) N k s else s)
        = if k ≤ k1 then Lambda.gaussColumn N k (back s) else back s := by
      split
      · exact column_exact N k s
      · rfl
    rw [← h]
    generalize (if k ≤ k1 then gaussColumn (exact K) N k s else s) = u
    dsimp only
    by_cases hl : u.D k + u.L (k + 1) k * u.L (k + 1) k * u.D (k + 1) < u.D (k + 1)
    · rw [if_pos (show (exact K).lt (deltaAt (exact K) k u) (u.D (k + 1)) = true from decide_eq_true hl),
        if_pos (show (back u).D k + (back u).L (k + 1) k * (back u).L (k + 1) k * (back u).D (k + 1) < (back u).D (k + 1)
          from hl)]
      rfl
    · rw [if_neg (show ¬ (exact K).lt (deltaAt (exact K) k u) (u.D (k + 1)) = true from by
          simpa [exact, deltaAt] using hl),
        if_neg (show ¬ (back u).D k + (back u).L (k + 1) k * (back u).L (k + 1) k * (back u).D (k + 1) < (back u).D (k + 1)
          from hl)]
      exact ih u

/-- **C148.** With exact arithmetic this is the loop of C32. -/
theorem C148_exact_model (N fuel k1 : Nat) (s : Red K K) :
    (reduceLoop (exact K) N fuel k1 s).map back = Lambda.reduceLoop N fuel k1 (back s) := by
  induction fuel generalizing k1 s with
  | zero => rfl
  | succ n ih =>
    unfold reduceLoop Lambda.reduceLoop
    have h := sweep_exact N k1 (N - 1) s
    rcases hw : sweep (exact K) N k1 (N - 1) s with ⟨_ | k, u⟩
    · rw [hw] at h; rw [← h]; rfl
    · rw [hw] at h; rw [← h]; exact ih k u

/-- The exact arithmetic of the search. -/
def exactS (K : Type) [Field K] [LinearOrder K] [IsStrictOrderedRing K] [FloorRing K] : SOps K where
  lt a b := decide (a < b)
  round := Lambda.round
  sign := Lambda.sign
  eq0 x := decide (x = 0)
  zero := 0
  one := 1
  big := 10 ^ 18
  add a b := a + b
  sub a b := a - b
  dist d l D := d + l * l / D
  cond s z a l := s + (z - a) * l
  turn s := -s - Lambda.sign s

/-- The variables of the exact model. -/
def backS (s : Search K) : Lambda.Search K :=
  ⟨s.k, s.left, s.chi2, s.count, s.imax, s.dist, s.acond, s.zcond, s.step, s.S, s.cands, s.norms⟩

theorem argmax_exact (v : Vec K) (n : Nat) : argmax (exactS K) v n = Lambda.argmax v n := by
  induction n with
  | zero => rfl
  | succ n ih => unfold argmax Lambda.argmax; rw [ih]; simp [exactS]

theorem first_exact (x : K) : firstStep (exactS K) x = if Lambda.sign x = 0 then 1 else Lambda.sign x := by
  simp [firstStep, exactS]

theorem init_exact (n m : Nat) (a : Vec K) : backS (searchInit (exactS K) n m a) = Lambda.searchInit n m a := by
  unfold searchInit Lambda.searchInit backS
  simp only [first_exact]
  rfl

theorem down_exact (L : Mat K) (a : Vec K) (x : K) (s : Search K) :
    backS (goDown (exactS K) L a x s) = Lambda.goDown L a x (backS s) := by
  unfold goDown Lambda.goDown backS
  simp only [first_exact]
  rfl

theorem store_exact (m : Nat) (x : K) (s : Search K) : backS (store (exactS K) m x s) = Lambda.store m x (backS s) := by
  unfold store Lambda.store
  by_cases h : s.count < m - 1
  · rw [if_pos h, if_pos (show (backS s).count < m - 1 from h)]; rfl
  · rw [if_neg h, if_neg (show ¬ (backS s).count < m - 1 from h)]
    unfold backS
    simp only [argmax_exact]
    rfl

theorem next_exact (k : Nat) (s : Search K) : backS (nextInt (exactS K) k s) = Lambda.nextInt k (backS s) := rfl

/-- **C148.** With exact arithmetic the search is that of C33. -/
theorem C148_exact_search (n m : Nat) (L : Mat K) (D a : Vec K) (fuel : Nat) :
    (searchLoop (exactS K) n m L D a fuel (searchInit (exactS K) n m a)).map backS
      = Lambda.searchLoop n m L D a fuel (Lambda.searchInit n m a) := by
  rw [← init_exact]
  generalize searchInit (exactS K) n m a = s
  induction fuel generalizing s with
  | zero => rfl
  | succ f ih =>
    unfold searchLoop Lambda.searchLoop
    dsimp only
    by_cases h : s.dist s.k + s.left * s.left / D s.k < s.chi2
    · rw [if_pos (show (exactS K).lt ((exactS K).dist (s.dist s.k) s.left (D s.k)) s.chi2 = true from decide_eq_true h),
        if_pos (show (backS s).dist (backS s).k + (backS s).left * (backS s).left / D (backS s).k < (backS s).chi2 from h)]
      by_cases hk : s.k ≠ 0
      · rw [if_pos hk, if_pos (show (backS s).k ≠ 0 from hk), ih, down_exact]; rfl
      · rw [if_neg hk, if_neg (show ¬ (backS s).k ≠ 0 from hk), ih, next_exact, store_exact]; rfl
    · rw [if_neg (show ¬ (exactS K).lt ((exactS K).dist (s.dist s.k) s.left (D s.k)) s.chi2 = true from by
          simpa [exactS] using h),
        if_neg (show ¬ (backS s).dist (backS s).k + (backS s).left * (backS s).left / D (backS s).k < (backS s).chi2
          from h)]
      by_cases hk : s.k = n - 1
      · rw [if_pos hk, if_pos (show (backS s).k = n - 1 from hk)]; rfl
      · rw [if_neg hk, if_neg (show ¬ (backS s).k = n - 1 from hk), ih, next_exact]; rfl

end Exact

/-- **C148.** The arithmetic in doubles is the exact one with roundings: without them it is the exact one. -/
theorem C148_only_rounded : dops id = exact ℚ ∧ dsops id = exactS ℚ := by
  constructor
  · rfl
  · have h : (qsign : ℚ → ℚ) = Lambda.sign := by
      funext x; unfold qsign Lambda.sign; rfl
    unfold dsops exactS
    rw [← h]
    rfl

/-! ### Whole numbers -/

/-- A whole number. -/
def Whole (x : ℚ) : Prop := ∃ k : Int, x = k

theorem whole_r {r : ℚ → ℚ} (hr : Nearest r) {x : ℚ} (h : Whole x) : Whole (r x) := by
  obtain ⟨k, rfl⟩ := h; exact r_int hr k

theorem whole_add {x y : ℚ} (hx : Whole x) (hy : Whole y) : Whole (x + y) := by
  obtain ⟨a, rfl⟩ := hx; obtain ⟨b, rfl⟩ := hy; exact ⟨a + b, by push_cast; rfl⟩
theorem whole_sub {x y : ℚ} (hx : Whole x) (hy : Whole y) : Whole (x - y) := by
  obtain ⟨a, rfl⟩ := hx; obtain ⟨b, rfl⟩ := hy; exact ⟨a - b, by push_cast; rfl⟩
theorem whole_neg {x : ℚ} (hx : Whole x) : Whole (-x) := by
  obtain ⟨a, rfl⟩ := hx; exact ⟨-a, by push_cast; rfl⟩
theorem whole_mul {x y : ℚ} (hx : Whole x) (hy : Whole y) : Whole (x * y) := by
  obtain ⟨a, rfl⟩ := hx; obtain ⟨b, rfl⟩ := hy; exact ⟨a * b, by push_cast; rfl⟩
theorem whole_sign (x : ℚ) : Whole (qsign x) := by
  unfold qsign; split
  · exact ⟨1, by simp⟩
  · exact ⟨-1, by simp⟩

/-- **C148.** The transformation is a matrix of whole numbers, for every rounding, every `L` and `D`. -/
theorem C148_whole {r : ℚ → ℚ} (hr : Nearest r) (N : Nat) (hN : 0 < N) (fuel k1 : Nat) (s t : Red ℚ ℚ)
    (hs : ∀ i j, Whole (s.Z i j)) (e : reduceLoop (dops r) N fuel k1 s = some t) (i j : Nat) : Whole (t.Z i j) := by
  refine reduce_inv (dops r) N hN (fun s => ∀ i j, Whole (s.Z i j)) ?_ ?_ fuel k1 s t hs e i j
  · intro i j s _ _ h a b
    unfold gauss
    dsimp only
    split
    · dsimp only
      split
      · exact whole_r hr (whole_sub (h _ _) (whole_r hr (whole_mul (qround_int _) (h _ _))))
      · exact h _ _
    · exact h _ _
  · intro k d s _ h a b
    unfold permute
    dsimp only
    split_ifs <;> exact h _ _

/-! ### Integers in place of doubles -/

/-- The runs with doubles and with integers side by side. -/
structure Same (s : Red ℚ ℚ) (u : Red ℚ (Option Int)) : Prop where
  L : s.L = u.L
  D : s.D = u.D
  a : s.a = u.a
  Z : ∀ i j z, u.Z i j = some z → s.Z i j = z

theorem gauss_same {r : ℚ → ℚ} (hr : Nearest r) (i j : Nat) {s : Red ℚ ℚ} {u : Red ℚ (Option Int)} (h : Same s u) :
    Same (gauss (dops r) i j s) (gauss (iops r) i j u) := by
  obtain ⟨h1, h2, h3, h4⟩ := h
  unfold gauss
  rw [← h1]
  have e : (iops r).ne0 ((iops r).round (s.L i j)) = (dops r).ne0 ((dops r).round (s.L i j)) := rfl
  dsimp only
  rw [e]
  split
  · refine ⟨rfl, h2, by rw [h3]; rfl, ?_⟩
    intro a b z hz
    dsimp only at hz ⊢
    split
    · rename_i hb
      rw [if_pos hb] at hz
      obtain ⟨mu, hmu⟩ := qround_int (s.L i j)
      have e1 : (dops r).round (s.L i j) = mu := hmu
      have e2 : (iops r).round (s.L i j) = mu := hmu
      rw [e2] at hz
      rw [e1]
      rcases hz1 : u.Z a b with _ | x
      · simp [iops, hz1] at hz
      rcases hz2 : u.Z a i with _ | y
      · simp [iops, hz1, hz2] at hz
      simp only [iops, hz1, hz2, Int.floor_intCast] at hz
      split at hz
      · rename_i hc
        simp only [Option.some.injEq] at hz
        subst hz
        rw [h4 _ _ _ hz1, h4 _ _ _ hz2]
        change r (x - r (mu * y)) = _
        have p : r ((mu : ℚ) * y) = ((mu * y : Int) : ℚ) := by
          have := hr.exact (F_int hc.1); push_cast at this ⊢; exact this
        rw [p]
        have q := hr.exact (F_int hc.2)
        push_cast at q ⊢
        exact q
      · simp at hz
    · rename_i hb
      rw [if_neg hb] at hz
      exact h4 _ _ _ hz
  · exact ⟨h1, h2, h3, h4⟩

theorem permute_same {r : ℚ → ℚ} (k : Nat) (d : ℚ) {s : Red ℚ ℚ} {u : Red ℚ (Option Int)} (h : Same s u) :
    Same (permute (dops r) k d s) (permute (iops r) k d u) := by
  obtain ⟨h1, h2, h3, h4⟩ := h
  refine ⟨?_, ?_, ?_, ?_⟩
  · unfold permute; rw [h1, h2]; rfl
  · unfold permute; rw [h2]; rfl
  · unfold permute; rw [h3]
  · intro i j z hz
    unfold permute at hz ⊢
    dsimp only at hz ⊢
    split_ifs at hz ⊢ <;> exact h4 _ _ _ hz

theorem column_same {r : ℚ → ℚ} (hr : Nearest r) (N k : Nat) {s : Red ℚ ℚ} {u : Red ℚ (Option Int)} (h : Same s u) :
    Same (gaussColumn (dops r) N k s) (gaussColumn (iops r) N k u) := by
  unfold gaussColumn
  generalize List.range (N - (k + 1)) = l
  induction l generalizing s u with
  | nil => exact h
  | cons i l ih => exact ih (gauss_same hr _ _ h)

theorem sweep_same {r : ℚ → ℚ} (hr : Nearest r) (N k1 n : Nat) {s : Red ℚ ℚ} {u : Red ℚ (Option Int)} (h : Same s u) :
    (sweep (dops r) N k1 n s).1 = (sweep (iops r) N k1 n u).1 ∧
      Same (sweep (dops r) N k1 n s).2 (sweep (iops r) N k1 n u).2 := by
  induction n generalizing s u with
  | zero => exact ⟨rfl, h⟩
  | succ k ih =>
    unfold sweep
    have h' : Same (if k ≤ k1 then gaussColumn (dops r) N k s else s) (if k ≤ k1 then gaussColumn (iops r) N k u else u) := by
      split
      · exact column_same hr N k h
      · exact h
    generalize (if k ≤ k1 then gaussColumn (dops r) N k s else s) = s' at *
    generalize (if k ≤ k1 then gaussColumn (iops r) N k u else u) = u' at *
    dsimp only
    have e1 : deltaAt (iops r) k u' = deltaAt (dops r) k s' := by
      unfold deltaAt; rw [← h'.D, ← h'.L]; rfl
    have e2 : (iops r).lt (deltaAt (iops r) k u') (u'.D (k + 1)) = (dops r).lt (deltaAt (dops r) k s') (s'.D (k + 1)) := by
      rw [e1, ← h'.D]; rfl
    rw [e2, e1]
    split
    · exact ⟨rfl, permute_same k _ h'⟩
    · exact ih h'

theorem reduce_same {r : ℚ → ℚ} (hr : Nearest r) (N fuel k1 : Nat) {s : Red ℚ ℚ} {u : Red ℚ (Option Int)} (h : Same s u)
    (t : Red ℚ ℚ) (e : reduceLoop (dops r) N fuel k1 s = some t) :
    ∃ v, reduceLoop (iops r) N fuel k1 u = some v ∧ Same t v := by
  induction fuel generalizing k1 s u with
  | zero => simp [reduceLoop] at e
  | succ n ih =>
    obtain ⟨h1, h2⟩ := sweep_same hr N k1 (N - 1) h
    unfold reduceLoop at e ⊢
    rcases hw : sweep (dops r) N k1 (N - 1) s with ⟨k, s'⟩
    rcases hv : sweep (iops r) N k1 (N - 1) u with ⟨k', u'⟩
    rw [hw] at e h1 h2
    rw [hv] at h1 h2
    dsimp only at h1 h2
    subst h1
    cases k with
    | none => simp only [Option.some.injEq] at e; subst e; exact ⟨u', rfl, h2⟩
    | some k => exact ih k h2 e

/-- The entries of the transformation below the size are all there. -/
def Entries (N : Nat) (Z : Mat (Option Int)) (G : Matrix (Fin N) (Fin N) Int) : Prop := ∀ i j : Fin N, Z i j = some (G i j)

/-- What is there has determinant one or minus one. -/
def Unimodular (N : Nat) (u : Red ℚ (Option Int)) : Prop := ∀ G, Entries N u.Z G → G.det = 1 ∨ G.det = -1

theorem gauss_unimodular (r : ℚ → ℚ) (N i j : Nat) (hij : j < i) (hi : i < N) (u : Red ℚ (Option Int))
    (h : Unimodular N u) : Unimodular N (gauss (iops r) i j u) := by
  intro G hG
  unfold gauss at hG
  dsimp only at hG
  split at hG
  · obtain ⟨mu, hmu⟩ := qround_int (u.L i j)
    have e2 : (iops r).round (u.L i j) = mu := hmu
    simp only [Entries, e2] at hG
    have hj : j < N := by omega
    -- the entries before
    have before : ∃ G0 : Matrix (Fin N) (Fin N) Int, Entries N u.Z G0 ∧
        ∀ a b : Fin N, G a b = if b.1 = j then G0 a b - mu * G0 a ⟨i, hi⟩ else G0 a b := by
      have ex : ∀ a b : Fin N, ∃ z, u.Z a b = some z ∧
          (b.1 = j → ∃ y, u.Z a i = some y ∧ G a b = z - mu * y) ∧ (b.1 ≠ j → G a b = z) := by
        intro a b
        have := hG a b
        by_cases hb : b.1 = j
        · rw [if_pos hb] at this
          rcases hz1 : u.Z a b with _ | x
          · simp [iops, hz1] at this
          rcases hz2 : u.Z a i with _ | y
          · simp [iops, hz1, hz2] at this
          simp only [iops, hz1, hz2, Int.floor_intCast] at this
          split at this
          · simp only [Option.some.injEq] at this
            exact ⟨x, rfl, fun _ => ⟨y, rfl, this.symm⟩, fun h => absurd hb h⟩
          · simp at this
        · rw [if_neg hb] at this
          exact ⟨G a b, this, fun h => absurd h hb, fun _ => rfl⟩
      choose G0 g1 g2 g3 using ex
      refine ⟨Matrix.of G0, fun a b => g1 a b, fun a b => ?_⟩
      split
      · rename_i hb
        obtain ⟨y, hy, he⟩ := g2 a b hb
        have := g1 a ⟨i, hi⟩
        rw [hy] at this
        simp only [Option.some.injEq] at this
        rw [he, this]; rfl
      · rename_i hb; exact g3 a b hb
    obtain ⟨G0, hG0, hG1⟩ := before
    have hM : G = G0.updateCol ⟨j, hj⟩ (fun k => G0 k ⟨j, hj⟩ + (-mu) * G0 k ⟨i, hi⟩) := by
      ext a b
      rw [hG1 a b, Matrix.updateCol_apply]
      by_cases hb : b.1 = j
      · have : b = ⟨j, hj⟩ := Fin.ext hb
        rw [if_pos hb, if_pos this, this]; ring
      · rw [if_neg hb, if_neg (fun h => hb (congrArg Fin.val h))]
    have hd := Matrix.det_updateCol_add_smul_self G0 (i := ⟨j, hj⟩) (j := ⟨i, hi⟩)
      (fun h => by have := congrArg Fin.val h; simp at this; omega) (-mu)
    have := h G0 hG0
    rw [hM]
    rw [← hd] at this
    exact this
  · exact h G hG

theorem permute_unimodular (r : ℚ → ℚ) (N k : Nat) (d : ℚ) (hk : k + 1 < N) (u : Red ℚ (Option Int))
    (h : Unimodular N u) : Unimodular N (permute (iops r) k d u) := by
  intro G hG
  let σ : Equiv.Perm (Fin N) := Equiv.swap ⟨k, by omega⟩ ⟨k + 1, hk⟩
  have hE : Entries N u.Z (G.submatrix id σ) := by
    intro a b
    have := hG a (σ b)
    rw [Matrix.submatrix_apply, id, ← this]
    unfold permute
    dsimp only
    by_cases h1 : b = ⟨k, by omega⟩
    · rw [h1, show σ ⟨k, by omega⟩ = ⟨k + 1, hk⟩ from Equiv.swap_apply_left _ _]
      simp
    · by_cases h2 : b = ⟨k + 1, hk⟩
      · rw [h2, show σ ⟨k + 1, hk⟩ = ⟨k, by omega⟩ from Equiv.swap_apply_right _ _]
        simp
      · rw [show σ b = b from Equiv.swap_apply_of_ne_of_ne h1 h2]
        rw [if_neg (fun h => h1 (Fin.ext h)), if_neg (fun h => h2 (Fin.ext h))]
  have := h _ hE
  rw [Matrix.det_permute'] at this
  rcases Int.units_eq_one_or (Equiv.Perm.sign σ) with s | s <;> rw [s] at this <;> simp at this <;> omega

/-- **C148.** As long as products and differences of the integers stay within `2^53` (the run with integers loses none),
the transformation in doubles is that of integers, and its determinant is one or minus one, however wrong `L` and `D`. -/
theorem C148_unimodular {r : ℚ → ℚ} (hr : Nearest r) (N : Nat) (hN : 0 < N) (fuel k1 : Nat) (L : Mat ℚ) (D a : Vec ℚ)
    (t : Red ℚ ℚ) (e : reduceLoop (dops r) N fuel k1 ⟨L, D, a, fun i j => if i = j then 1 else 0⟩ = some t) :
    ∃ v, reduceLoop (iops r) N fuel k1 ⟨L, D, a, fun i j => some (if i = j then 1 else 0)⟩ = some v ∧
      ∀ G : Matrix (Fin N) (Fin N) Int, Entries N v.Z G →
        (G.det = 1 ∨ G.det = -1) ∧ ∀ i j : Fin N, t.Z i j = G i j := by
  have h0 : Same ⟨L, D, a, fun i j => if i = j then 1 else 0⟩ ⟨L, D, a, fun i j => some (if i = j then 1 else 0)⟩ := by
    refine ⟨rfl, rfl, rfl, fun i j z hz => ?_⟩
    simp only [Option.some.injEq] at hz
    rw [← hz]; dsimp only; split <;> simp
  obtain ⟨v, hv, hs⟩ := reduce_same hr N fuel k1 h0 t e
  refine ⟨v, hv, fun G hG => ⟨?_, fun i j => hs.Z _ _ _ (hG i j)⟩⟩
  refine reduce_inv (iops r) N hN (Unimodular N) (fun i j s hij hi h => gauss_unimodular r N i j hij hi s h)
    (fun k d s hk h => permute_unimodular r N k d hk s h) fuel k1 _ v ?_ hv G hG
  intro G hG
  left
  have : G = 1 := by
    ext i j
    have := hG i j
    simp only [Option.some.injEq] at this
    rw [← this, Matrix.one_apply]
    simp [Fin.ext_iff]
  rw [this, Matrix.det_one]

/-! ### Candidates -/

/-- The whole numbers of the search. -/
structure Ints (s : Search ℚ) : Prop where
  z : ∀ k, Whole (s.zcond k)
  step : ∀ k, Whole (s.step k)
  cands : ∀ c k, Whole (s.cands c k)

theorem put_whole {v : Vec ℚ} (h : ∀ k, Whole (v k)) (i : Nat) {x : ℚ} (hx : Whole x) (k : Nat) : Whole (put v i x k) := by
  unfold put; split
  · exact hx
  · exact h k

theorem first_whole (r : ℚ → ℚ) (x : ℚ) : Whole (firstStep (dsops r) x) := by
  unfold firstStep; split
  · exact ⟨1, by simp [dsops]⟩
  · exact whole_sign x

theorem init_ints (r : ℚ → ℚ) (n m : Nat) (ahat : Vec ℚ) : Ints (searchInit (dsops r) n m ahat) := by
  have h0 : ∀ _k : Nat, Whole ((dsops r).zero) := fun _ => ⟨0, by simp [dsops]⟩
  refine ⟨fun k => ?_, fun k => ?_, fun _ k => h0 k⟩
  · exact put_whole h0 _ (qround_int _) k
  · exact put_whole h0 _ (first_whole r _) k

theorem down_ints (r : ℚ → ℚ) (L : Mat ℚ) (ahat : Vec ℚ) (x : ℚ) (s : Search ℚ) (h : Ints s) :
    Ints (goDown (dsops r) L ahat x s) :=
  ⟨fun k => put_whole h.z _ (qround_int _) k, fun k => put_whole h.step _ (first_whole r _) k, h.cands⟩

theorem store_ints (r : ℚ → ℚ) (m : Nat) (x : ℚ) (s : Search ℚ) (h : Ints s) : Ints (store (dsops r) m x s) := by
  unfold store
  split
  · refine ⟨h.z, h.step, fun c k => ?_⟩
    dsimp only; split
    · exact h.z k
    · exact h.cands c k
  · refine ⟨h.z, h.step, fun c k => ?_⟩
    dsimp only; split
    · exact h.z k
    · exact h.cands c k

theorem next_ints {r : ℚ → ℚ} (hr : Nearest r) (k : Nat) (s : Search ℚ) (h : Ints s) : Ints (nextInt (dsops r) k s) :=
  ⟨fun i => put_whole h.z _ (whole_r hr (whole_add (h.z k) (h.step k))) i,
   fun i => put_whole h.step _ (whole_r hr (whole_sub (whole_neg (h.step k)) (whole_sign _))) i, h.cands⟩

/-- **C148.** Every candidate the search stores is a vector of whole numbers. -/
theorem C148_candidates {r : ℚ → ℚ} (hr : Nearest r) (n m : Nat) (L : Mat ℚ) (D ahat : Vec ℚ) (fuel : Nat) (c : Mat ℚ)
    (e : search (dsops r) n m L D ahat fuel = some c) (i k : Nat) : Whole (c i k) := by
  unfold search at e
  rw [Option.map_eq_some_iff] at e
  obtain ⟨s, hs, rfl⟩ := e
  have key : ∀ fuel (s t : Search ℚ), Ints s → searchLoop (dsops r) n m L D ahat fuel s = some t → Ints t := by
    intro fuel
    induction fuel with
    | zero => intro s t _ h; simp [searchLoop] at h
    | succ f ih =>
      intro s t hs h
      unfold searchLoop at h
      dsimp only at h
      split at h
      · split at h
        · exact ih _ _ (down_ints r L ahat _ s hs) h
        · exact ih _ _ (next_ints hr 0 _ (store_ints r m _ s hs)) h
      · split at h
        · simp only [Option.some.injEq] at h; rw [← h]; exact hs
        · exact ih _ _ (next_ints hr _ s hs) h
  exact (key fuel _ s (init_ints r n m ahat) hs).cands i k

/-! ### The fix -/

theorem dot_whole {r : ℚ → ℚ} (hr : Nearest r) {l : List (ℚ × ℚ)} {x : ℚ} (h : Dot r l x)
    (hl : ∀ p ∈ l, Whole p.1 ∧ Whole p.2) : Whole x := by
  induction h with
  | nil => exact ⟨0, by simp⟩
  | prod a b =>
    have := hl (a, b) (by simp)
    exact whole_r hr (whole_mul this.1 this.2)
  | fused a b x l _ ih =>
    have := hl (a, b) (by simp)
    exact whole_r hr (whole_add (ih fun p hp => hl p (by simp [hp])) (whole_mul this.1 this.2))
  | add l₁ l₂ x y _ _ ih1 ih2 =>
    exact whole_r hr (whole_add (ih1 fun p hp => hl p (by simp [hp])) (ih2 fun p hp => hl p (by simp [hp])))
  | perm l₁ l₂ x hp _ ih => exact ih fun p h => hl p (hp.mem_iff.1 h)

/-- **C148.** The fix is a vector of whole numbers: for every rounding, every order of the sums, every `L`, `D`, and
every result of the inversion. -/
theorem C148_fix_whole {r : ℚ → ℚ} (hr : Nearest r) (n m fuel : Nat) (f incr : Vec ℚ) (hi : ∀ i, Whole (incr i))
    (L : Mat ℚ) (D : Vec ℚ) (inv : Mat ℚ) (x : Vec ℚ) (h : Fix r n m fuel f incr L D inv x) (i : Nat) : Whole (x i) := by
  rw [h.hx i]
  refine whole_r hr (whole_add (dot_whole hr (h.hy i) ?_) (hi i))
  intro p hp
  rw [List.mem_map] at hp
  obtain ⟨j, -, rfl⟩ := hp
  exact ⟨qround_int _, C148_candidates hr n m _ _ _ fuel h.cands h.hsearch _ _⟩

/-- Sum of the products, and of their absolute values. -/
def total (l : List (ℚ × ℚ)) : ℚ := (l.map fun p => p.1 * p.2).sum
def mass (l : List (ℚ × ℚ)) : ℚ := (l.map fun p => |p.1 * p.2|).sum

theorem mass_nonneg (l : List (ℚ × ℚ)) : 0 ≤ mass l := by
  unfold mass
  apply List.sum_nonneg
  intro x hx
  rw [List.mem_map] at hx
  obtain ⟨p, -, rfl⟩ := hx
  exact abs_nonneg _

theorem total_le (l : List (ℚ × ℚ)) : |total l| ≤ mass l := by
  induction l with
  | nil => simp [total, mass]
  | cons p l ih =>
    have e1 : total (p :: l) = p.1 * p.2 + total l := by simp [total]
    have e2 : mass (p :: l) = |p.1 * p.2| + mass l := by simp [mass]
    rw [e1, e2]
    exact le_trans (abs_add_le _ _) (by linarith)

theorem total_whole (l : List (ℚ × ℚ)) (hl : ∀ p ∈ l, Whole p.1 ∧ Whole p.2) : Whole (total l) := by
  induction l with
  | nil => exact ⟨0, by simp [total]⟩
  | cons p l ih =>
    have e1 : total (p :: l) = p.1 * p.2 + total l := by simp [total]
    rw [e1]
    have := hl p (by simp)
    exact whole_add (whole_mul this.1 this.2) (ih fun q hq => hl q (by simp [hq]))

theorem r_whole {r : ℚ → ℚ} (hr : Nearest r) {x : ℚ} (h : Whole x) (hx : |x| ≤ 2 ^ 53) : r x = x := by
  obtain ⟨k, rfl⟩ := h
  exact hr.exact (F_int (by exact_mod_cast hx))

theorem dot_exact {r : ℚ → ℚ} (hr : Nearest r) {l : List (ℚ × ℚ)} {x : ℚ} (h : Dot r l x)
    (hl : ∀ p ∈ l, Whole p.1 ∧ Whole p.2) (hm : mass l ≤ 2 ^ 53) : x = total l := by
  induction h with
  | nil => simp [total]
  | prod a b =>
    have := hl (a, b) (by simp)
    have e : total [(a, b)] = a * b := by simp [total]
    have e' : mass [(a, b)] = |a * b| := by simp [mass]
    rw [e] ; rw [e'] at hm
    exact r_whole hr (whole_mul this.1 this.2) hm
  | fused a b x l _ ih =>
    have h1 : mass ((a, b) :: l) = |a * b| + mass l := by simp [mass]
    have h2 : total ((a, b) :: l) = total l + a * b := by simp [total]; ring
    have hl' : ∀ p ∈ l, Whole p.1 ∧ Whole p.2 := fun p hp => hl p (by simp [hp])
    rw [ih hl' (by have := abs_nonneg (a * b); linarith), ← h2]
    exact r_whole hr (total_whole _ hl) (le_trans (total_le _) hm)
  | add l₁ l₂ x y _ _ ih1 ih2 =>
    have h1 : mass (l₁ ++ l₂) = mass l₁ + mass l₂ := by simp [mass]
    have h2 : total (l₁ ++ l₂) = total l₁ + total l₂ := by simp [total]
    have a := mass_nonneg l₁
    have b := mass_nonneg l₂
    rw [ih1 (fun p hp => hl p (by simp [hp])) (by linarith), ih2 (fun p hp => hl p (by simp [hp])) (by linarith), ← h2]
    exact r_whole hr (total_whole _ hl) (le_trans (total_le _) hm)
  | perm l₁ l₂ x hp _ ih =>
    have e1 : mass l₁ = mass l₂ := (hp.map _).sum_eq
    have e2 : total l₁ = total l₂ := (hp.map _).sum_eq
    rw [← e2]
    exact ih (fun p h => hl p (hp.mem_iff.1 h)) (by rw [e1]; exact hm)

/-- **C148.** The fix `x` is exactly `Z⁻ᵀ z + incr` for the transformation `Z` that was used and the candidate `z`, if the
entries of the computed inverse are less than a half wrong and the sums stay within `2^53`. -/
theorem C148_fix_exact {r : ℚ → ℚ} (hr : Nearest r) (n m fuel : Nat) (f incr : Vec ℚ) (hi : ∀ i, Whole (incr i))
    (L : Mat ℚ) (D : Vec ℚ) (inv : Mat ℚ) (x : Vec ℚ) (h : Fix r n m fuel f incr L D inv x)
    (H : Matrix (Fin n) (Fin n) Int)
    (hH : ∀ i j : Fin n, ∑ k : Fin n, h.red.Z i k * H k j = if i = j then 1 else 0)
    (hinv : ∀ i j : Fin n, |inv i j - H i j| < 1 / 2)
    (hs : ∀ i : Fin n, ∑ j : Fin n, |(H j i : ℚ) * h.cands h.best j| + |incr i| ≤ 2 ^ 53) (j : Fin n) :
    ∑ i : Fin n, h.red.Z i j * (x i - incr i) = h.cands h.best j := by
  have conv : ∀ (i : Fin n) (g : ℚ × ℚ → ℚ),
      (((List.range n).map fun j => (qround (inv j i), h.cands h.best j)).map g).sum
        = ∑ j : Fin n, g ((H j i : ℚ), h.cands h.best j) := by
    intro i g
    rw [List.map_map, ← List.map_coe_finRange_eq_range, List.map_map, ← List.sum_ofFn, List.ofFn_eq_map]
    congr 1
    apply List.map_congr_left
    intro j _
    simp only [Function.comp_apply]
    rw [qround_near (hinv j i)]
  have main : ∀ i : Fin n, x i - incr i = ∑ j : Fin n, (H j i : ℚ) * h.cands h.best j := by
    intro i
    have hw : ∀ p ∈ ((List.range n).map fun j => (qround (inv j i), h.cands h.best j)), Whole p.1 ∧ Whole p.2 := by
      intro p hp
      rw [List.mem_map] at hp
      obtain ⟨j, -, rfl⟩ := hp
      exact ⟨qround_int _, C148_candidates hr n m _ _ _ fuel h.cands h.hsearch _ _⟩
    have b := hs i
    have hM : mass ((List.range n).map fun j => (qround (inv j i), h.cands h.best j)) ≤ 2 ^ 53 := by
      unfold mass; rw [conv i (fun p => |p.1 * p.2|)]; have := abs_nonneg (incr i); linarith
    have e := dot_exact hr (h.hy i) hw hM
    have hT : total ((List.range n).map fun j => (qround (inv j i), h.cands h.best j))
        = ∑ j : Fin n, (H j i : ℚ) * h.cands h.best j := conv i (fun p => p.1 * p.2)
    have hwhole : Whole (∑ j : Fin n, (H j i : ℚ) * h.cands h.best j + incr i) := by
      rw [← hT]; exact whole_add (total_whole _ hw) (hi i)
    rw [h.hx i, e, hT, r_whole hr hwhole
      (le_trans (abs_add_le _ _) (le_trans (add_le_add (Finset.abs_sum_le_sum_abs _ _) le_rfl) b))]
    ring
  let Z : Matrix (Fin n) (Fin n) ℚ := Matrix.of fun i j => h.red.Z i j
  let H' : Matrix (Fin n) (Fin n) ℚ := Matrix.of fun i j => (H i j : ℚ)
  have h1 : Z * H' = 1 := by
    ext i j; rw [Matrix.mul_apply, Matrix.one_apply]; exact hH i j
  have h2 : H' * Z = 1 := mul_eq_one_comm.1 h1
  have h3 : Z.transpose.mulVec (H'.transpose.mulVec fun j : Fin n => h.cands h.best j) = fun j : Fin n => h.cands h.best j := by
    rw [Matrix.mulVec_mulVec, ← Matrix.transpose_mul, h2, Matrix.transpose_one, Matrix.one_mulVec]
  have h4 := congrFun h3 j
  simp only [Matrix.mulVec, dotProduct, Matrix.transpose_apply] at h4
  rw [← h4]
  refine Finset.sum_congr rfl fun i _ => ?_
  rw [main i]
  rfl

/-! ### Examples -/

/-- Two ambiguities; the first column of the transformation is changed. -/
example {r : ℚ → ℚ} (hr : Nearest r) :
    let L : Mat ℚ := fun i j => if i = j then 1 else if i = 1 ∧ j = 0 then 2 else 0
    ∃ t v, reduceLoop (dops r) 2 1 0 ⟨L, fun _ => 1, fun _ => 0, fun i j => if i = j then 1 else 0⟩ = some t ∧
      reduceLoop (iops r) 2 1 0 ⟨L, fun _ => 1, fun _ => 0, fun i j => some (if i = j then 1 else 0)⟩ = some v ∧
      Entries 2 v.Z !![1, 0; -2, 1] ∧ t.Z 1 0 = -2 := by
  intro L
  have r0 : r 0 = 0 := by simpa using hr.exact (F_int (n := 0) (by norm_num))
  have r1 : r 1 = 1 := by simpa using hr.exact (F_int (n := 1) (by norm_num))
  have r2 : r 2 = 2 := by simpa using hr.exact (F_int (n := 2) (by norm_num))
  have rm : r (-2) = -2 := by simpa using hr.exact (F_int (n := -2) (by norm_num))
  have q2 : qround 2 = 2 := by
    have := qround_near (x := 2) (k := 2) (by norm_num)
    simpa using this
  refine ⟨gauss (dops r) 1 0 ⟨L, fun _ => 1, fun _ => 0, fun i j => if i = j then 1 else 0⟩,
    gauss (iops r) 1 0 ⟨L, fun _ => 1, fun _ => 0, fun i j => some (if i = j then 1 else 0)⟩, ?_, ?_, ?_, ?_⟩
  · have h : ¬ (dops r).lt (deltaAt (dops r) 0 (gauss (dops r) 1 0 ⟨L, fun _ => 1, fun _ => 0, fun i j => if i = j then 1 else 0⟩)) 1 := by
      simp [gauss, deltaAt, dops, L, q2, r0, r1, r2]
    have hD := gauss_D (dops r) 1 0 ⟨L, fun _ => 1, fun _ => 0, fun i j => if i = j then 1 else 0⟩
    simp only [reduceLoop, sweep, gaussColumn, Nat.reduceSub, Nat.reduceAdd, le_refl, if_true, List.range_one,
      List.foldl_cons, List.foldl_nil, hD, h, if_false, Bool.false_eq_true]
  · have h : ¬ (iops r).lt (deltaAt (iops r) 0 (gauss (iops r) 1 0 ⟨L, fun _ => 1, fun _ => 0, fun i j => some (if i = j then 1 else 0)⟩)) 1 := by
      simp [gauss, deltaAt, iops, dops, L, q2, r0, r1, r2]
    have hD := gauss_D (iops r) 1 0 ⟨L, fun _ => 1, fun _ => 0, fun i j => some (if i = j then 1 else 0)⟩
    simp only [reduceLoop, sweep, gaussColumn, Nat.reduceSub, Nat.reduceAdd, le_refl, if_true, List.range_one,
      List.foldl_cons, List.foldl_nil, hD, h, if_false, Bool.false_eq_true]
  · intro i j
    fin_cases i <;> fin_cases j <;> simp [gauss, iops, dops, L, q2]
  · simp [gauss, dops, L, q2, r2, rm]

/-- One ambiguity of 13/4 with unit variance is fixed to 3. -/
example {r : ℚ → ℚ} (hr : Nearest r) :
    ∃ h : Fix r 1 2 4 (fun _ => 1 / 4) (fun _ => 3) (fun _ _ => 1) (fun _ => 1) (fun _ _ => 1) (fun _ => 3),
      h.cands h.best 0 = 0 ∧ h.red.Z 0 0 = 1 := by
  have q0 : qround 4⁻¹ = 0 := by
    have := qround_near (x := 4⁻¹) (k := 0) (by norm_num [abs_of_pos])
    simpa using this
  have q1 : qround 1 = 1 := by
    have := qround_near (x := 1) (k := 1) (by norm_num)
    simpa using this
  have ex : ∀ (k : Int) (e : ℕ) (x : ℚ), |k| < 2 ^ 53 → e ≤ 1074 → x = k * (2 : ℚ) ^ (-(e : Int)) → r x = x :=
    fun k e x hk he hx => hr.exact ⟨k, -(e : Int), hk, by omega, hx⟩
  have a0 : r 0 = 0 := ex 0 0 _ (by norm_num) (by norm_num) (by norm_num)
  have a1 : r 1 = 1 := ex 1 0 _ (by norm_num) (by norm_num) (by norm_num)
  have am : r (-1) = -1 := ex (-1) 0 _ (by norm_num) (by norm_num) (by norm_num)
  have a2 : r (-1 - 1) = -2 := by rw [ex (-2) 0 _ (by norm_num) (by norm_num) (by norm_num)]; norm_num
  have am1 : r (1 + -2) = -1 := by rw [ex (-1) 0 _ (by norm_num) (by norm_num) (by norm_num)]; norm_num
  have a3 : r 3 = 3 := ex 3 0 _ (by norm_num) (by norm_num) (by norm_num)
  have b1 : r 4⁻¹ = 4⁻¹ := ex 1 2 _ (by norm_num) (by norm_num) (by norm_num)
  have b3 : r (4⁻¹ - 1) = -3 / 4 := by rw [ex (-3) 2 _ (by norm_num) (by norm_num) (by norm_num)]; norm_num
  have b5 : r (4⁻¹ + 1) = 5 / 4 := by rw [ex 5 2 _ (by norm_num) (by norm_num) (by norm_num)]; norm_num
  have c1 : r (4⁻¹ * 4⁻¹) = 1 / 16 := by rw [ex 1 4 _ (by norm_num) (by norm_num) (by norm_num)]; norm_num
  have c1' : r (1 / 16) = 1 / 16 := ex 1 4 _ (by norm_num) (by norm_num) (by norm_num)
  have c9 : r (-3 / 4 * (-3 / 4)) = 9 / 16 := by rw [ex 9 4 _ (by norm_num) (by norm_num) (by norm_num)]; norm_num
  have c9' : r (9 / 16) = 9 / 16 := ex 9 4 _ (by norm_num) (by norm_num) (by norm_num)
  have c25 : r (5 / 4 * (5 / 4)) = 25 / 16 := by rw [ex 25 4 _ (by norm_num) (by norm_num) (by norm_num)]; norm_num
  have c25' : r (25 / 16) = 25 / 16 := ex 25 4 _ (by norm_num) (by norm_num) (by norm_num)
  have g2 : qsign (-2) = -1 := by norm_num [qsign]
  have g1 : qsign 1 = 1 := by norm_num [qsign]
  have g4 : qsign 4⁻¹ = 1 := by norm_num [qsign]
  have k1 : (1 / 16 : ℚ) < 10 ^ 18 := by norm_num
  have k2 : (9 / 16 : ℚ) < 10 ^ 18 := by norm_num
  have k3 : ¬ (25 / 16 : ℚ) < 9 / 16 := by norm_num
  have k4 : (1 / 16 : ℚ) < 9 / 16 := by norm_num
  obtain ⟨c, hc, hc0⟩ : ∃ c, search (dsops r) 1 2 (fun _ _ => 1) (fun _ => 1) (fun _ => 4⁻¹) 4 = some c ∧ c 0 0 = 0 := by
    refine ⟨fun c r => if c = 1 then if r = 0 then 1 else if r = 0 then 0 else 0
      else if c = 0 then if r = 0 then 0 else 0 else 0, by
      simp only [search, searchLoop, searchInit, store, nextInt, argmax, firstStep, dsops, put, q0, sub_zero, b1, c1, c1', c9,
        c9', c25, c25', g1, g2, g4, k1, k2, k3, k4, a0, a1, a2, am1, b3, b5, div_one, zero_add, decide_true, decide_false,
        if_true, if_false, ne_eq, not_true_eq_false, Nat.sub_self, Nat.reduceSub, sub_neg_eq_add, zero_lt_one,
        one_ne_zero, zero_ne_one, lt_irrefl, Bool.false_eq_true, Option.map_some, Nat.reduceAdd, neg_neg], ?_⟩
    simp
  refine ⟨⟨⟨fun _ _ => 1, fun _ => 1, fun _ => 4⁻¹, fun i j => if i = j then 1 else 0⟩, ?_, c, ?_, 0, fun _ => 0, ?_, ?_⟩, ?_, ?_⟩
  · simp [reduceLoop, sweep]
  · simpa using hc
  · intro i
    have := Dot.prod (r := r) (qround 1) 0
    rw [mul_zero, a0] at this
    simpa [hc0] using this
  · intro i; rw [zero_add, a3]
  · exact hc0
  · simp

end Verif.Props.FloatLambda

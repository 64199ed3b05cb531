import Verif.Spec.PostProcess
import Verif.Props.Time
/-!
# C114: replay of a log by the post processor
-/
namespace Verif.Props.PostProcess

open Verif.Utc Verif.Post Verif.TimeSpec Verif.Spec.PostProcess

variable {ι ω : Type}

/-! ### The run over whole nanoseconds -/

/-- More than 10 ms until the next observation record, if there is one. -/
def gapAfter (t : Time) (rs : List (Rec ι ω)) : Bool :=
  match obsRecs rs with
  | [] => true
  | o :: _ => decide (instant o.1 - instant t > 10 ^ 7)

/-- `Post.run` with instants in place of times. -/
def arun (x0 : Int) : Int → List (Time × ω) → List (Rec ι ω) → List (Call ι ω)
  | _, _, [] => []
  | next, b, r :: rs =>
    if next - instant r.t ≤ 50000 ∧ instant r.t - x0 > 45 * 10 ^ 9 then []
    else
      let next' := if next - instant r.t ≤ 50000 then next + 10 ^ 7 else next
      (if next - instant r.t ≤ 50000 then [Call.estimate r.t] else []) ++
      match r.data with
      | .imu z => Call.imu r.t z :: arun x0 next' b rs
      | .obs s z =>
        if gapAfter r.t rs then Call.obs r.t (addObs b s z) :: arun x0 next' [] rs
        else arun x0 next' (addObs b s z) rs

theorem toSecNs_instant (t : Time) : toSecNs t = instant t := by
  unfold toSecNs instant; norm_num

theorem sub_good {a b : Time} (ha : Norm a) (hb : Norm b) (a0 : 0 ≤ a.sec) (a1 : a.sec < 2 ^ 63) (b0 : 0 ≤ b.sec) (b1 : b.sec < 2 ^ 63) :
    ∃ d, sub a b = some d ∧ toSecNs d = instant a - instant b := by
  obtain ⟨d, h1, -, h2⟩ := sub_defined a b ha hb ⟨by omega, by omega⟩
  exact ⟨d, h1, by rw [toSecNs_instant, h2]⟩

/-- What stays true of `next_call`. -/
def NextOk (n : Time) : Prop := Norm n ∧ 0 ≤ n.sec ∧ n.sec ≤ 2 ^ 61 + 2

theorem geq_good {t n : Time} (ht : Good t) (hn : NextOk n) :
    geq t (quantized n) = some (decide (instant n - instant t ≤ 50000)) := by
  obtain ⟨d, h1, h2⟩ := sub_good hn.1 ht.1 hn.2.1 (by have := hn.2.2; omega) ht.2.1 (by have := ht.2.2; omega)
  have e : quantized n = n := rfl
  unfold geq
  rw [e, h1]
  show some (decide (toSecNs d ≤ HALF)) = _
  rw [h2]
  rfl

theorem addSec_period {n : Time} (hn : NextOk n) : ∃ d, addSec n (1 / 100) = some d ∧ Norm d ∧ instant d = instant n + 10 ^ 7 := by
  have e : trunc ((1 / 100 : ℚ) * 10 ^ 9) = 10 ^ 7 := by
    have h0 : ((1 / 100 : ℚ) * 10 ^ 9) = ((10 ^ 7 : Int) : ℚ) := by norm_num
    rw [h0, trunc, if_pos (by norm_num), Int.floor_intCast]
  obtain ⟨⟨d, h1, h2, h3⟩, -⟩ := Verif.Props.Time.C07_add_seconds n (1 / 100) hn.1 (by rw [e]; norm_num) ⟨by have := hn.2.1; omega, by have := hn.2.2; omega⟩
  exact ⟨d, h1, h2, by rw [h3, e]⟩

theorem nextStamp_gap {t : Time} (ht : Good t) (rs : List (Rec ι ω)) (hr : ∀ r ∈ rs, Good r.t) :
    ∃ d, sub (nextStamp rs) t = some d ∧ decide (toSecNs d > 10000000) = gapAfter t rs := by
  induction rs with
  | nil =>
    obtain ⟨d, h1, h2⟩ := sub_good (a := Post.MAX_TIME) (b := t) ⟨by decide, by decide⟩ ht.1 (by decide) (by decide) ht.2.1
      (by have := ht.2.2; omega)
    refine ⟨d, h1, ?_⟩
    have : toSecNs d > 10000000 := by
      rw [h2]
      have h3 := ht.2.2
      have h4 := ht.1.2
      simp only [instant, Post.MAX_TIME]
      omega
    simp [gapAfter, obsRecs, this]
  | cons r rs ih =>
    obtain ⟨rt, rd⟩ := r
    cases rd with
    | imu z =>
      have := ih (fun r h => hr r (by simp [h]))
      simpa [nextStamp, gapAfter, obsRecs] using this
    | obs s z =>
      have hg := hr ⟨rt, .obs s z⟩ (by simp)
      obtain ⟨d, h1, h2⟩ := sub_good (a := rt) hg.1 ht.1 hg.2.1 (by have := hg.2.2; simp at this ⊢; omega) ht.2.1 (by have := ht.2.2; omega)
      refine ⟨d, h1, ?_⟩
      rw [h2]
      simp [gapAfter, obsRecs]

theorem run_eq (x0t : Time) (hx : Good x0t) (recs : List (Rec ι ω)) (hr : ∀ r ∈ recs, Good r.t) (next : Time) (hn : NextOk next)
    (b : List (Time × ω)) : run x0t next b recs = some (arun (instant x0t) (instant next) b recs) := by
  induction recs generalizing next b with
  | nil => rfl
  | cons r rs ih =>
    have hg := hr r (by simp)
    have ih := ih (fun r h => hr r (by simp [h]))
    rw [run, geq_good hg hn]
    obtain ⟨d, d1, d2⟩ := sub_good hg.1 hx.1 hg.2.1 (by have := hg.2.2; omega) hx.2.1 (by have := hx.2.2; omega)
    obtain ⟨n', n1, n2, n3⟩ := addSec_period hn
    obtain ⟨g, g1, g2⟩ := nextStamp_gap hg rs (fun r h => hr r (by simp [h]))
    rw [arun]
    by_cases hd : instant next - instant r.t ≤ 50000
    · have hn' : NextOk n' := by
        refine ⟨n2, ?_, ?_⟩
        · have a1 := hn.1; have a2 := hn.2; have a3 := n2
          simp only [Norm, instant] at *; omega
        · have a1 := hn.1; have a2 := hn.2; have a3 := n2; have a4 := hg
          simp only [Good, Norm, instant] at *; omega
      by_cases he : instant r.t - instant x0t > 45 * 10 ^ 9
      · simp only [hd, he, d1, d2, n1, Option.map_some, decide_true, bind, Option.bind_some, if_true, and_self]
        rw [if_pos (by simp only [decide_eq_true_eq]; omega)]
      · simp only [hd, he, d1, d2, n1, Option.map_some, decide_true, bind, Option.bind_some, if_true, true_and, if_false]
        rw [if_neg (by simp only [decide_eq_true_eq]; omega), ← n3]
        rcases hdat : r.data with z | ⟨s, z⟩
        · simp [ih n' hn']
        · simp only [g1, Option.bind_some]
          by_cases hgap : gapAfter r.t rs = true
          · rw [if_pos (by rw [hgap] at g2; simpa using g2), if_pos hgap, ih n' hn']
            simp
          · rw [if_neg (by rw [Bool.not_eq_true] at hgap; rw [hgap] at g2; simpa using g2), if_neg hgap, ih n' hn']
            simp
    · simp only [hd, decide_false, bind, Option.bind_some, Bool.false_eq_true, if_false, false_and]
      rcases hdat : r.data with z | ⟨s, z⟩
      · simp [ih next hn]
      · simp only [g1, Option.bind_some]
        by_cases hgap : gapAfter r.t rs = true
        · rw [if_pos (by rw [hgap] at g2; simpa using g2), if_pos hgap, ih next hn]
          simp
        · rw [if_neg (by rw [Bool.not_eq_true] at hgap; rw [hgap] at g2; simpa using g2), if_neg hgap, ih next hn]
          simp

/-! ### What reaches the filter -/

theorem imuCalls_append (a b : List (Call ι ω)) : imuCalls (a ++ b) = imuCalls a ++ imuCalls b := List.filterMap_append
theorem obsCalls_append (a b : List (Call ι ω)) : obsCalls (a ++ b) = obsCalls a ++ obsCalls b := List.filterMap_append
theorem estCalls_append (a b : List (Call ι ω)) : estCalls (a ++ b) = estCalls a ++ estCalls b := List.filterMap_append

theorem imuCalls_est (p : Prop) [Decidable p] (t : Time) : imuCalls (if p then [Call.estimate t] else ([] : List (Call ι ω))) = [] := by
  split <;> rfl
theorem obsCalls_est (p : Prop) [Decidable p] (t : Time) : obsCalls (if p then [Call.estimate t] else ([] : List (Call ι ω))) = [] := by
  split <;> rfl

theorem imu_arun (x0 : Int) (early late : List (Rec ι ω)) (h : ∀ r ∈ early, instant r.t - x0 ≤ 45 * 10 ^ 9) (next : Int)
    (b : List (Time × ω)) : ∃ next' b', imuCalls (arun x0 next b (early ++ late)) = imuRecs early ++ imuCalls (arun x0 next' b' late) := by
  induction early generalizing next b with
  | nil => exact ⟨next, b, rfl⟩
  | cons r rs ih =>
    have ih := ih (fun r h' => h r (by simp [h']))
    have h0 := h r (by simp)
    rw [List.cons_append, arun, if_neg (by omega)]
    rcases hdat : r.data with z | ⟨s, z⟩
    · obtain ⟨n', b', e⟩ := ih (if next - instant r.t ≤ 50000 then next + 10 ^ 7 else next) b
      refine ⟨n', b', ?_⟩
      dsimp only
      rw [imuCalls_append, imuCalls_est, List.nil_append]
      have e1 : imuRecs (r :: rs) = (r.t, z) :: imuRecs rs := by simp [imuRecs, hdat]
      rw [e1, List.cons_append, ← e]
      rfl
    · have e1 : imuRecs (r :: rs) = imuRecs rs := by simp [imuRecs, hdat]
      dsimp only
      rw [imuCalls_append, imuCalls_est, List.nil_append, e1]
      by_cases hg : gapAfter r.t (rs ++ late) = true
      · obtain ⟨n', b', e⟩ := ih (if next - instant r.t ≤ 50000 then next + 10 ^ 7 else next) []
        refine ⟨n', b', ?_⟩
        rw [if_pos hg, ← e]
        rfl
      · obtain ⟨n', b', e⟩ := ih (if next - instant r.t ≤ 50000 then next + 10 ^ 7 else next) (addObs b s z)
        refine ⟨n', b', ?_⟩
        rw [if_neg hg, ← e]

/-- No record near follows. -/
def ends (o : Time × Time × ω) : List (Time × Time × ω) → Bool
  | [] => true
  | o' :: _ => !near o o'

/-- The bundling alone. -/
def bundles : List (Time × ω) → List (Time × Time × ω) → List (Time × List (Time × ω))
  | _, [] => []
  | b, o :: os =>
    if ends o os then (o.1, addObs b o.2.1 o.2.2) :: bundles [] os
    else bundles (addObs b o.2.1 o.2.2) os

theorem obs_arun (x0 : Int) (recs : List (Rec ι ω)) (h : ∀ r ∈ recs, instant r.t - x0 ≤ 45 * 10 ^ 9) (next : Int)
    (b : List (Time × ω)) : obsCalls (arun x0 next b recs) = bundles b (obsRecs recs) := by
  induction recs generalizing next b with
  | nil => rfl
  | cons r rs ih =>
    have ih := ih (fun r h' => h r (by simp [h']))
    have h0 := h r (by simp)
    rw [arun, if_neg (by omega)]
    rcases hdat : r.data with z | ⟨s, z⟩
    · dsimp only
      rw [obsCalls_append, obsCalls_est, List.nil_append]
      have e1 : obsRecs (r :: rs) = obsRecs rs := by simp [obsRecs, hdat]
      rw [e1, ← ih]
      rfl
    · have e1 : obsRecs (r :: rs) = (r.t, s, z) :: obsRecs rs := by simp [obsRecs, hdat]
      have e2 : ends (r.t, s, z) (obsRecs rs) = gapAfter r.t rs := by
        unfold gapAfter
        rcases obsRecs rs with _ | ⟨o, os⟩
        · rfl
        · simp only [ends, near]
          rw [← decide_not]
          exact decide_eq_decide.2 not_le
      dsimp only
      rw [obsCalls_append, obsCalls_est, List.nil_append, e1, bundles, e2]
      by_cases hg : gapAfter r.t rs = true
      · rw [if_pos hg, if_pos hg, ← ih]; rfl
      · rw [if_neg hg, if_neg hg, ih]

theorem foldl_addObs (f : Time × ω) (b : List (Time × ω)) (g : List (Time × Time × ω)) :
    g.foldl (fun b o => addObs b o.2.1 o.2.2) (f :: b) = f :: b ++ (g.filter fun o => decide (o.2.1 = f.1)).map Prod.snd := by
  induction g generalizing b with
  | nil => simp
  | cons o g ih =>
    have e : Utc.eq f.1 o.2.1 = decide (o.2.1 = f.1) := by
      unfold Utc.eq
      rw [Bool.eq_iff_iff]
      simp only [Bool.and_eq_true, beq_iff_eq, decide_eq_true_eq]
      constructor
      · rintro ⟨h1, h2⟩; generalize f.1 = a at *; generalize o.2.1 = c at *; cases a; cases c; simp_all
      · intro h; rw [h]; exact ⟨rfl, rfl⟩
    rw [List.foldl_cons, addObs, e]
    by_cases h : o.2.1 = f.1
    · rw [if_pos (by simpa using h), List.filter_cons_of_pos (by simpa using h)]
      rw [List.cons_append, ih]
      simp
    · rw [if_neg (by simpa using h), List.filter_cons_of_neg (by simpa using h), ih]

/-- The bundle of a stretch: it is delivered with the stamp of the last record, and has the
observations with the time of the first one. -/
def IsBundle (g : List (Time × Time × ω)) (c : Time × List (Time × ω)) : Prop :=
  ∃ h : g ≠ [], c.1 = (g.getLast h).1 ∧ c.2 = (g.filter fun o => decide (o.2.1 = (g.head h).2.1)).map Prod.snd

theorem bundles_group (g rest : List (Time × Time × ω)) (hg : g ≠ []) (hc : g.IsChain fun x y => near x y = true)
    (hr : ∀ o ∈ rest.head?, near (g.getLast hg) o = false) (b : List (Time × ω)) :
    bundles b (g ++ rest) = ((g.getLast hg).1, g.foldl (fun b o => addObs b o.2.1 o.2.2) b) :: bundles [] rest := by
  induction g generalizing b with
  | nil => exact absurd rfl hg
  | cons o g ih =>
    cases g with
    | nil =>
      rw [List.singleton_append, bundles]
      have : ends o rest = true := by
        cases rest with
        | nil => rfl
        | cons o' rest => have := hr o' (by simp); simp at this; simp [ends, this]
      rw [if_pos this]
      rfl
    | cons o2 g =>
      rw [List.cons_append, bundles]
      have h1 : near o o2 = true := by
        rw [List.isChain_cons_cons] at hc; exact hc.1
      have : ¬ (ends o (o2 :: g ++ rest) = true) := by
        show ¬ ((!near o o2) = true)
        rw [h1]; decide
      rw [if_neg this, ih (by simp) (by rw [List.isChain_cons_cons] at hc; exact hc.2) (by simpa using hr)]
      simp

theorem fold_head (g : List (Time × Time × ω)) (hg : g ≠ []) :
    g.foldl (fun b o => addObs b o.2.1 o.2.2) [] = (g.filter fun o => decide (o.2.1 = (g.head hg).2.1)).map Prod.snd := by
  cases g with
  | nil => exact absurd rfl hg
  | cons o g =>
    rw [List.foldl_cons]
    show g.foldl _ [(o.2.1, o.2.2)] = _
    rw [foldl_addObs]
    simp
    rfl

theorem bundles_flatten (L : List (List (Time × Time × ω))) (hn : [] ∉ L) (hc : ∀ m ∈ L, m.IsChain fun x y => near x y = true)
    (hc' : L.IsChain fun a b => ∃ ha hb, near (a.getLast ha) (b.head hb) = false) :
    List.Forall₂ IsBundle L (bundles [] L.flatten) := by
  induction L with
  | nil => exact List.Forall₂.nil
  | cons g L ih =>
    have hg : g ≠ [] := by rintro rfl; exact hn (by simp)
    rw [List.flatten_cons, bundles_group g L.flatten hg (hc g (by simp)) ?_]
    · refine List.Forall₂.cons ⟨hg, rfl, fold_head g hg⟩ (ih (fun h => hn (by simp [h])) (fun m hm => hc m (by simp [hm])) ?_)
      exact hc'.tail
    · intro o ho
      cases L with
      | nil => simp at ho
      | cons g2 L =>
        rw [List.isChain_cons_cons] at hc'
        obtain ⟨ha, hb, h⟩ := hc'.1
        cases g2 with
        | nil => exact absurd rfl hb
        | cons o2 g2 =>
          simp at ho
          subst ho
          exact h

/-- **C114, partial** (what the replay does once it knows its start `x0t`).  Every IMU sample
stamped up to 45 s after `x0t` reaches the filter, once, in order, whatever follows. -/
theorem C114_imu_partial (x0t start : Time) (hx : Good x0t) (hs : Good start) (early late : List (Rec ι ω))
    (hr : ∀ r ∈ early ++ late, Good r.t) (h : ∀ r ∈ early, instant r.t ≤ instant x0t + 45 * 10 ^ 9) :
    ∃ out more, run x0t start [] (early ++ late) = some out ∧ imuCalls out = imuRecs early ++ more := by
  have hn : NextOk start := ⟨hs.1, hs.2.1, by have := hs.2.2; omega⟩
  obtain ⟨n', b', e⟩ := imu_arun (instant x0t) early late (fun r h' => by have := h r h'; omega) (instant start) []
  exact ⟨_, _, run_eq x0t hx _ hr start hn [], e⟩

/-- **C114, partial.** The observations are cut into stretches at gaps of more than 10 ms between
their stamps; each stretch gives one bundle, of the observations that have the time of its first. -/
theorem C114_bundles_partial (x0t start : Time) (hx : Good x0t) (hs : Good start) (recs : List (Rec ι ω))
    (hr : ∀ r ∈ recs, Good r.t) (h : ∀ r ∈ recs, instant r.t ≤ instant x0t + 45 * 10 ^ 9) :
    ∃ out, run x0t start [] recs = some out ∧ List.Forall₂ IsBundle (stretches recs) (obsCalls out) := by
  have hn : NextOk start := ⟨hs.1, hs.2.1, by have := hs.2.2; omega⟩
  refine ⟨_, run_eq x0t hx _ hr start hn [], ?_⟩
  rw [obs_arun (instant x0t) recs (fun r h' => by have := h r h'; omega)]
  have := bundles_flatten (stretches recs) (List.nil_notMem_splitBy _ _) (fun m hm => List.isChain_of_mem_splitBy hm)
    (List.isChain_getLast_head_splitBy _ _)
  rwa [stretches, List.flatten_splitBy] at this

/-- **C114, partial.** If the observations of every stretch have one time, none is lost and none is
given twice: the bundles together are the observations, in order. -/
theorem C114_lossless_partial (x0t start : Time) (hx : Good x0t) (hs : Good start) (recs : List (Rec ι ω))
    (hr : ∀ r ∈ recs, Good r.t) (h : ∀ r ∈ recs, instant r.t ≤ instant x0t + 45 * 10 ^ 9)
    (h1 : ∀ g ∈ stretches recs, ∀ a ∈ g, ∀ b ∈ g, a.2.1 = b.2.1) :
    ∃ out, run x0t start [] recs = some out ∧ (obsCalls out).flatMap Prod.snd = (obsRecs recs).map Prod.snd := by
  obtain ⟨out, e, hf⟩ := C114_bundles_partial x0t start hx hs recs hr h
  refine ⟨out, e, ?_⟩
  have : ∀ L C, List.Forall₂ IsBundle L C → (∀ g ∈ L, ∀ a ∈ g, ∀ b ∈ g, a.2.1 = b.2.1) →
      C.flatMap Prod.snd = (L.flatten).map (Prod.snd : Time × Time × ω → Time × ω) := by
    intro L C hf
    induction hf with
    | nil => intro _; rfl
    | cons hb _ ih =>
      intro h1
      obtain ⟨hne, -, h3⟩ := hb
      rw [List.flatMap_cons, List.flatten_cons, List.map_append, ih (fun g hg => h1 g (by simp [hg])), h3,
        List.filter_eq_self.2 (fun o ho => by simpa using h1 _ (by simp) o ho _ (List.head_mem hne))]
  rw [this _ _ hf h1, stretches, List.flatten_splitBy]

/-! ### The logged estimates -/

theorem est_arun_lower (x0 : Int) (recs : List (Rec ι ω)) (next : Int) (b : List (Time × ω)) (k : ℕ) (t : Time)
    (h : (estCalls (arun x0 next b recs))[k]? = some t) : next + k * 10 ^ 7 ≤ instant t + 50000 := by
  induction recs generalizing next b k with
  | nil => simp [arun, estCalls] at h
  | cons r rs ih =>
    rw [arun] at h
    split at h
    · simp [estCalls] at h
    · dsimp only at h
      rw [estCalls_append] at h
      have hrest : ∀ (next' : Int) (k' : ℕ), (estCalls (match r.data with
          | .imu z => Call.imu r.t z :: arun x0 next' b rs
          | .obs s z => if gapAfter r.t rs then Call.obs r.t (addObs b s z) :: arun x0 next' [] rs
            else arun x0 next' (addObs b s z) rs))[k']? = some t → next' + k' * 10 ^ 7 ≤ instant t + 50000 := by
        intro next' k' h'
        rcases hdat : r.data with z | ⟨s, z⟩
        · rw [hdat] at h'; exact ih next' b k' h'
        · rw [hdat] at h'
          dsimp only at h'
          split at h'
          · exact ih next' [] k' h'
          · exact ih next' _ k' h'
      by_cases hd : next - instant r.t ≤ 50000
      · simp only [hd, if_true] at h
        cases k with
        | zero =>
          simp [estCalls] at h
          subst h
          push_cast; omega
        | succ k =>
          have h2 := hrest (next + 10 ^ 7) k (by simpa [estCalls] using h)
          push_cast; omega
      · simp only [hd, if_false] at h
        exact hrest next k (by simpa [estCalls] using h)

/-- **C114, partial.** The estimates are never logged faster than every 10 ms: the `k`-th one (from
zero) not before `start + k · 10 ms`, to the half quantum of the comparison. -/
theorem C114_rate_bound_partial (x0t start : Time) (hx : Good x0t) (hs : Good start) (recs : List (Rec ι ω))
    (hr : ∀ r ∈ recs, Good r.t) :
    ∃ out, run x0t start [] recs = some out ∧
      ∀ (k : ℕ) t, (estCalls out)[k]? = some t → instant start + k * 10 ^ 7 ≤ instant t + 50000 := by
  have hn : NextOk start := ⟨hs.1, hs.2.1, by have := hs.2.2; omega⟩
  exact ⟨_, run_eq x0t hx _ hr start hn [], fun k t h => est_arun_lower _ recs _ _ k t h⟩

theorem est_arun_count (x0 start : Int) (recs : List (Rec ι ω)) (h : ∀ r ∈ recs, instant r.t - x0 ≤ 45 * 10 ^ 9)
    (prev next : Int) (k : ℕ) (hk : next = start + k * 10 ^ 7) (h1 : prev + 50000 < next) (h2 : next ≤ prev + 50000 + 10 ^ 7)
    (hc : (prev :: recs.map fun r => instant r.t).IsChain fun a b => a ≤ b ∧ b ≤ a + 10 ^ 7) (b : List (Time × ω)) :
    ((k + (estCalls (arun x0 next b recs)).length : ℕ) : Int) =
      ((((prev :: recs.map fun r => instant r.t).getLast (by simp)) + 50000 - start) / 10 ^ 7) + 1 := by
  induction recs generalizing prev next k b with
  | nil =>
    simp only [arun, estCalls, List.filterMap_nil, List.length_nil, List.map_nil, List.getLast_singleton]
    omega
  | cons r rs ih =>
    have ih := ih (fun r h' => h r (by simp [h']))
    have h0 := h r (by simp)
    rw [List.map_cons, List.isChain_cons_cons] at hc
    obtain ⟨⟨c1, c2⟩, c3⟩ := hc
    rw [arun, if_neg (by omega)]
    dsimp only
    rw [estCalls_append]
    have hlast : (prev :: List.map (fun r => instant r.t) (r :: rs)).getLast (by simp) =
        (instant r.t :: List.map (fun r => instant r.t) rs).getLast (by simp) := by
      simp only [List.map_cons]
      rw [List.getLast_cons (by simp)]
    rw [hlast]
    have hrest : ∀ (next' : Int) (k' : ℕ), next' = start + k' * 10 ^ 7 → instant r.t + 50000 < next' →
        next' ≤ instant r.t + 50000 + 10 ^ 7 → ((k' + (estCalls (match r.data with
          | .imu z => Call.imu r.t z :: arun x0 next' b rs
          | .obs s z => if gapAfter r.t rs then Call.obs r.t (addObs b s z) :: arun x0 next' [] rs
            else arun x0 next' (addObs b s z) rs)).length : ℕ) : Int) =
        (((instant r.t :: List.map (fun r => instant r.t) rs).getLast (by simp) + 50000 - start) / 10 ^ 7) + 1 := by
      intro next' k' e1 e2 e3
      rcases hdat : r.data with z | ⟨s, z⟩
      · exact ih (instant r.t) next' k' e1 e2 e3 c3 b
      · dsimp only
        split
        · exact ih (instant r.t) next' k' e1 e2 e3 c3 []
        · exact ih (instant r.t) next' k' e1 e2 e3 c3 _
    by_cases hd : next - instant r.t ≤ 50000
    · simp only [hd, if_true]
      have := hrest (next + 10 ^ 7) (k + 1) (by push_cast; omega) (by omega) (by omega)
      rw [← this]
      simp [estCalls]
      omega
    · simp only [hd, if_false]
      have := hrest next k hk (by omega) (by omega)
      rw [← this]
      simp [estCalls]

/-- **C114, partial.** With records at most 10 ms apart, beginning at the start of the log, the
schedule is kept exactly: the number of estimates is that of the periods begun. -/
theorem C114_rate_partial (x0t start : Time) (hx : Good x0t) (hs : Good start) (r : Rec ι ω) (rs : List (Rec ι ω))
    (hr : ∀ q ∈ r :: rs, Good q.t) (h : ∀ q ∈ r :: rs, instant q.t ≤ instant x0t + 45 * 10 ^ 9)
    (h0 : instant r.t = instant start)
    (hc : ((r :: rs).map fun r => instant r.t).IsChain fun a b => a ≤ b ∧ b ≤ a + 10 ^ 7) :
    ∃ out, run x0t start [] (r :: rs) = some out ∧
      ((estCalls out).length : Int) = (instant ((r :: rs).getLast (by simp)).t + 50000 - instant start) / 10 ^ 7 + 1 := by
  have hn : NextOk start := ⟨hs.1, hs.2.1, by have := hs.2.2; omega⟩
  refine ⟨_, run_eq x0t hx _ hr start hn [], ?_⟩
  have := est_arun_count (instant x0t) (instant start) (r :: rs) (fun r h' => by have := h r h'; omega)
    (instant start - 10 ^ 7 + 50000) (instant start) 0 (by simp) (by omega) (by omega) ?_ ([] : List (Time × ω))
  · rw [Nat.zero_add] at this
    rw [this]
    congr 4
    rw [List.getLast_cons (by simp), List.getLast_map]
  · rw [List.map_cons, List.isChain_cons_cons]
    exact ⟨⟨by omega, by omega⟩, by simpa using hc⟩

/-! ### What the program does -/

/-- **C114, violated.** The program measures its 45 s from 1970, because the state it starts from
has no time: a log that begins at or after its start time, later than 46 s after 1970, is left at
its first record.  No sample, no observation reaches the filter, no estimate is logged. -/
theorem C114_nothing_violated (start : Time) (hs : Good start) (r : Rec ι ω) (rs : List (Rec ι ω)) (hr : Good r.t)
    (h : instant start ≤ instant r.t) (h46 : 46 ≤ r.t.sec) : postProcess start (r :: rs) = some [] := by
  have hn : NextOk start := ⟨hs.1, hs.2.1, by have := hs.2.2; omega⟩
  have hx : Good ⟨0, 0⟩ := ⟨⟨by decide, by decide⟩, by decide, by decide⟩
  obtain ⟨d, d1, d2⟩ := sub_good hr.1 hx.1 hr.2.1 (by have := hr.2.2; omega) hx.2.1 (by decide)
  obtain ⟨n', n1, -⟩ := addSec_period hn
  have hd : instant start - instant r.t ≤ 50000 := by omega
  have he : toSecNs d > 45000000000 := by
    rw [d2]; have := hr.1.1; simp only [instant]; omega
  rw [postProcess, run, geq_good hr hn]
  rw [one_div] at n1
  simp [hd, getStateTime, d1, n1, he]

/-- The full property: in a log of at most 45 s, everything reaches the filter. -/
def C114_statement : Prop :=
  ∀ (start : Time) (recs : List (Rec ℕ ℕ)), Good start →
    (∀ r ∈ recs, Good r.t ∧ instant start ≤ instant r.t ∧ instant r.t ≤ instant start + 45 * 10 ^ 9) →
    ∃ out, postProcess start recs = some out ∧ imuCalls out = imuRecs recs ∧
      (obsCalls out).flatMap Prod.snd = (obsRecs recs).map Prod.snd

theorem C114_statement_false : ¬ C114_statement := by
  intro h
  have g : Good ⟨1561988124, 0⟩ := ⟨⟨by decide, by decide⟩, by decide, by decide⟩
  obtain ⟨out, h1, h2, -⟩ := h ⟨1561988124, 0⟩ [⟨⟨1561988124, 0⟩, .imu 7⟩] g (by
    intro r hr
    simp at hr
    subst hr
    exact ⟨g, by simp, by simp⟩)
  rw [C114_nothing_violated _ g _ _ g (by simp) (by simp)] at h1
  cases h1
  simp [imuCalls, imuRecs] at h2

/-- **C114, violated** (even with the time of the start).  Observations of a second epoch logged
within 10 ms of the first are dropped: of the epochs 100.0 s and 100.2 s, logged 4 ms apart, only the
first reaches the filter. -/
theorem C114_dropped_violated : ∃ out, run (ι := ℕ) (ω := ℕ) ⟨100, 0⟩ ⟨100, 0⟩ []
    [⟨⟨100, 300000000⟩, .obs ⟨100, 0⟩ 1⟩, ⟨⟨100, 302000000⟩, .obs ⟨100, 0⟩ 2⟩,
     ⟨⟨100, 304000000⟩, .obs ⟨100, 200000000⟩ 3⟩] = some out ∧
    obsCalls out = [(⟨100, 304000000⟩, [(⟨100, 0⟩, 1), (⟨100, 0⟩, 2)])] := by
  have g : Good ⟨100, 0⟩ := ⟨⟨by decide, by decide⟩, by decide, by decide⟩
  have hn : NextOk ⟨100, 0⟩ := ⟨⟨by decide, by decide⟩, by decide, by decide⟩
  refine ⟨_, run_eq _ g _ ?_ _ hn [], ?_⟩
  · intro r hr
    simp at hr
    rcases hr with rfl | rfl | rfl <;> exact ⟨⟨by decide, by decide⟩, by decide, by decide⟩
  · decide +kernel

/-- The hypotheses of the partial theorems for a log of two IMU samples and two epochs: both epochs
are delivered whole. -/
example : stretches (ι := ℕ) (ω := ℕ) [⟨⟨100, 0⟩, .imu 5⟩, ⟨⟨100, 1000000⟩, .obs ⟨99, 0⟩ 1⟩, ⟨⟨100, 2000000⟩, .obs ⟨99, 0⟩ 2⟩,
      ⟨⟨100, 10000000⟩, .imu 6⟩, ⟨⟨100, 201000000⟩, .obs ⟨99, 200000000⟩ 3⟩] =
    [[(⟨100, 1000000⟩, ⟨99, 0⟩, 1), (⟨100, 2000000⟩, ⟨99, 0⟩, 2)], [(⟨100, 201000000⟩, ⟨99, 200000000⟩, 3)]] := by decide +kernel

end Verif.Props.PostProcess

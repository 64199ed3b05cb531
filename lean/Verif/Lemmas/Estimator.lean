import Verif.Model.Estimator
import Mathlib.Data.List.Basic
import Mathlib.Data.List.Induction
import Mathlib.Data.List.TakeWhile
import Mathlib.Tactic.Linarith
/-! # Lemmas about the estimator model (used by Props/Estimator.lean) -/
namespace Verif.Est
open Verif.Sat
variable {σ υ ζ : Type}

theorem bind_ok {α β : Type} {r : Res α} {f : α → Res β} {b : β} (h : r.bind f = .ok b) :
    ∃ a, r = .ok a ∧ f a = .ok b := by
  cases r with
  | ok a => exact ⟨a, rfl, h⟩
  | abort => cases h
  | ub => cases h

/-- Strictly increasing in time. -/
def Inc (st : List (Snap σ υ)) : Prop := st.Pairwise fun a b => a.t < b.t
/-- Sorted by the measurement order. -/
def MSorted (ms : List (Meas υ ζ)) : Prop := ms.Pairwise fun a b => b.lt a = false

theorem keyLt_iff (t : Int) (i : Nat) (t' : Int) (i' : Nat) :
    keyLt t i t' i' = true ↔ t < t' ∨ (t = t' ∧ i < i') := by
  unfold keyLt
  split_ifs with h
  · simp [h]
  · simp [h]

theorem keyLt_zero (t : Int) (i : Nat) (t' : Int) : keyLt t i t' 0 = true ↔ t < t' := by
  rw [keyLt_iff]; simp

theorem emplaceBack_good {st : List (Snap σ υ)} {b s : Snap σ υ} (hs : st.getLast? = some b)
    (hi : Inc st) (hl : st.length ≤ CAP) (hb : b.t < s.t) :
    Inc (emplaceBack st s) ∧ (emplaceBack st s).length ≤ CAP ∧ (emplaceBack st s).getLast? = some s := by
  have hall : ∀ a ∈ st, a.t ≤ b.t := by
    obtain ⟨ys, rfl⟩ := List.getLast?_eq_some_iff.1 hs
    intro a ha
    rw [List.mem_append] at ha
    rcases ha with ha | ha
    · exact le_of_lt ((List.pairwise_append.1 hi).2.2 a ha b (by simp))
    · rw [List.mem_singleton] at ha; rw [ha]
  unfold emplaceBack
  split_ifs with h
  · refine ⟨?_, ?_, by simp⟩
    · refine List.pairwise_append.2 ⟨hi.sublist (List.drop_sublist 1 st), by simp, ?_⟩
      intro a ha c hc
      rw [List.mem_singleton] at hc
      rw [hc]
      exact lt_of_le_of_lt (hall a (List.mem_of_mem_drop ha)) hb
    · rw [List.length_append, List.length_drop, h, List.length_singleton]; decide
  · refine ⟨?_, ?_, by simp⟩
    · refine List.pairwise_append.2 ⟨hi, by simp, ?_⟩
      intro a ha c hc
      rw [List.mem_singleton] at hc
      rw [hc]
      exact lt_of_le_of_lt (hall a ha) hb
    · rw [List.length_append, List.length_singleton]; omega

/-- Time-sorted, within capacity, and the newest snapshot is at most half a quantum before `t`. -/
def Fit (st : List (Snap σ υ)) (t : Int) : Prop :=
  Inc st ∧ st.length ≤ CAP ∧ ∃ b, st.getLast? = some b ∧ t - HALF ≤ b.t

theorem handleImu_fit {F : Filter σ υ ζ} {st st' : List (Snap σ υ)} {t : Int} {z : υ}
    (h : handleImu F st t z = .ok st') (hi : Inc st) (hl : st.length ≤ CAP) : Fit st' t := by
  unfold handleImu at h
  split at h
  · cases h
  · rename_i b hb
    split_ifs at h with h1 h2
    · cases h
      obtain ⟨a1, a2, a3⟩ := emplaceBack_good (s := ⟨t, F.predict b.x (t - b.t) z, z⟩) hb hi hl h1
      exact ⟨a1, a2, _, a3, by simp [HALF]⟩
    · cases h
      exact ⟨hi, hl, b, hb, by simp only [HALF]; omega⟩

theorem catchUp_fit {F : Filter σ υ ζ} {st st' : List (Snap σ υ)} {t : Int}
    (h : catchUp F st t = .ok st') (hi : Inc st) (hl : st.length ≤ CAP) : Fit st' t := by
  unfold catchUp at h
  split at h
  · cases h
  · rename_i b hb
    split_ifs at h with h1
    · exact handleImu_fit h hi hl
    · cases h
      exact ⟨hi, hl, b, hb, by omega⟩

theorem modifyBack_fit {st st' : List (Snap σ υ)} {f : Snap σ υ → σ} {t : Int}
    (h : modifyBack st f = .ok st') (hf : Fit st t) : Fit st' t := by
  unfold modifyBack at h
  split at h
  · cases h
  · rename_i b hb
    cases h
    obtain ⟨hi, hl, b', hb', ht⟩ := hf
    obtain ⟨ys, rfl⟩ := List.getLast?_eq_some_iff.1 hb
    rw [hb] at hb'
    cases hb'
    refine ⟨?_, ?_, ⟨b.t, f b, b.u⟩, by simp, ht⟩
    · unfold Inc at *
      rw [List.dropLast_concat, List.pairwise_append] at *
      refine ⟨hi.1, by simp, ?_⟩
      intro a ha c hc
      rw [List.mem_singleton] at hc
      rw [hc]
      exact hi.2.2 a ha b (by simp)
    · simpa using hl

theorem handleMeas_fit {F : Filter σ υ ζ} {cache : List Nat} {mgr : Manager} {st st' : List (Snap σ υ)}
    {m : Meas υ ζ} (h : handleMeas F cache mgr st m = .ok st') (hi : Inc st) (hl : st.length ≤ CAP) :
    Fit st' m.t := by
  unfold handleMeas at h
  split at h
  · exact handleImu_fit h hi hl
  · obtain ⟨a, h1, h2⟩ := bind_ok h
    exact modifyBack_fit h2 (catchUp_fit h1 hi hl)
  · obtain ⟨a, h1, h2⟩ := bind_ok h
    exact modifyBack_fit h2 (catchUp_fit h1 hi hl)
  · obtain ⟨a, h1, h2⟩ := bind_ok h
    split_ifs at h2
    exact modifyBack_fit h2 (catchUp_fit h1 hi hl)

theorem rollFilter_fit {F : Filter σ υ ζ} {cache : List Nat} {mgr : Manager} :
    ∀ {l : List (Meas υ ζ)} {st st' : List (Snap σ υ)} (_ : rollFilter F cache mgr st l = .ok st')
      (_ : Inc st) (_ : st.length ≤ CAP) {m : Meas υ ζ}, l.getLast? = some m → Fit st' m.t := by
  intro l
  induction l with
  | nil => intro st st' _ _ _ m hm; simp at hm
  | cons a r ih =>
    intro st st' h hi hl m hm
    obtain ⟨s1, h1, h2⟩ := bind_ok h
    have hf := handleMeas_fit h1 hi hl
    cases r with
    | nil =>
      simp only [List.getLast?_singleton, Option.some.injEq] at hm
      subst hm
      cases h2
      exact hf
    | cons c r =>
      rw [List.getLast?_cons_cons] at hm
      exact ih h2 hf.1 hf.2.1 hm

theorem popBackWhile_suffix {d : Int} : ∀ {l r : List (Snap σ υ)}, popBackWhile d l = .ok r →
    ∃ p, l = p ++ r ∧ (∀ a ∈ p, a.t > d) ∧ ∃ b q, r = b :: q ∧ b.t ≤ d := by
  intro l
  induction l with
  | nil => intro r h; cases h
  | cons a l ih =>
    intro r h
    unfold popBackWhile at h
    split_ifs at h with h1
    · obtain ⟨p, e, hp, hb⟩ := ih h
      refine ⟨a :: p, by rw [e]; rfl, ?_, hb⟩
      intro x hx
      rw [List.mem_cons] at hx
      rcases hx with rfl | hx
      · exact h1
      · exact hp x hx
    · cases h
      exact ⟨[], rfl, by simp, a, l, rfl, by omega⟩

theorem popFrontWhile_suffix {d : Int} : ∀ {l r : List (Snap σ υ)}, popFrontWhile d l = .ok r →
    ∃ p, l = p ++ r ∧ (∀ a ∈ p, d - a.t > HALF) ∧ ∃ b q, r = b :: q ∧ d - b.t ≤ HALF := by
  intro l
  induction l with
  | nil => intro r h; cases h
  | cons a l ih =>
    intro r h
    unfold popFrontWhile at h
    split_ifs at h with h1
    · obtain ⟨p, e, hp, hb⟩ := ih h
      refine ⟨a :: p, by rw [e]; rfl, ?_, hb⟩
      intro x hx
      rw [List.mem_cons] at hx
      rcases hx with rfl | hx
      · exact h1
      · exact hp x hx
    · cases h
      exact ⟨[], rfl, by simp, a, l, rfl, by omega⟩

theorem rewind_prefix {ms : List (Meas υ ζ)} {st st' : List (Snap σ υ)} {t : Int}
    (h : rewind ms st t = .ok st') : ∃ p, st = st' ++ p := by
  unfold rewind at h
  split at h
  · cases h
  · split_ifs at h
    · split at h
      · cases h
      · obtain ⟨r, h1, h2⟩ := bind_ok h
        obtain ⟨p, e, _⟩ := popBackWhile_suffix h1
        cases h2
        refine ⟨p.reverse, ?_⟩
        rw [← List.reverse_append, ← e, List.reverse_reverse]
    · cases h
      exact ⟨[], by simp⟩

/-- Insertion at the upper bound keeps the list sorted. -/
theorem insert_sorted {ms : List (Meas υ ζ)} (hs : MSorted ms) (m : Meas υ ζ) :
    MSorted (ms.takeWhile (fun x => !m.lt x) ++ m :: ms.dropWhile (fun x => !m.lt x)) := by
  have htw : ∀ a ∈ ms.takeWhile (fun x => !m.lt x), m.lt a = false := by
    intro a ha
    have := List.mem_takeWhile_imp ha
    simpa using this
  have hdw : ∀ b ∈ ms.dropWhile (fun x => !m.lt x), m.lt b = true := by
    intro b hb
    have hsub : MSorted (ms.dropWhile (fun x => !m.lt x)) := hs.sublist (List.dropWhile_sublist _)
    cases hd : ms.dropWhile (fun x => !m.lt x) with
    | nil => rw [hd] at hb; simp at hb
    | cons c r =>
      have hc : m.lt c = true := by
        have := List.head?_dropWhile_not (fun x => !m.lt x) ms
        rw [hd] at this
        simpa using this
      rw [hd] at hb hsub
      rw [List.mem_cons] at hb
      rcases hb with rfl | hb
      · exact hc
      · have := (List.pairwise_cons.1 hsub).1 b hb
        unfold Meas.lt at *
        rw [keyLt_iff] at *
        have h2 := this
        rw [Bool.eq_false_iff, ne_eq, keyLt_iff] at h2
        omega
  refine List.pairwise_append.2 ⟨hs.sublist (List.takeWhile_sublist _), ?_, ?_⟩
  · refine List.pairwise_cons.2 ⟨?_, hs.sublist (List.dropWhile_sublist _)⟩
    intro b hb
    have h := hdw b hb
    unfold Meas.lt at *
    rw [keyLt_iff] at h
    rw [Bool.eq_false_iff, ne_eq, keyLt_iff]
    omega
  · intro a ha b hb
    rw [List.mem_cons] at hb
    have h1 := htw a ha
    rcases hb with rfl | hb
    · exact h1
    · have h2 := hdw b hb
      unfold Meas.lt at *
      rw [keyLt_iff] at h2
      rw [Bool.eq_false_iff, ne_eq, keyLt_iff] at *
      omega

theorem sorted_le_last {ms : List (Meas υ ζ)} (hs : MSorted ms) {l : Meas υ ζ} (hl : ms.getLast? = some l) :
    ∀ m ∈ ms, m.t ≤ l.t := by
  obtain ⟨ys, rfl⟩ := List.getLast?_eq_some_iff.1 hl
  intro m hm
  rw [List.mem_append, List.mem_singleton] at hm
  rcases hm with hm | rfl
  · have := (List.pairwise_append.1 hs).2.2 m hm l (by simp)
    unfold Meas.lt at this
    rw [Bool.eq_false_iff, ne_eq, keyLt_iff] at this
    omega
  · exact le_refl _

theorem dropWhile_tail {p : Meas υ ζ → Bool} {ms : List (Meas υ ζ)} {l : Meas υ ζ}
    (hl : ms.getLast? = some l) (hp : p l = false) : (ms.dropWhile p).getLast? = some l := by
  induction ms with
  | nil => simp at hl
  | cons a r ih =>
    rw [List.dropWhile_cons]
    split_ifs with h
    · cases r with
      | nil =>
        simp only [List.getLast?_singleton, Option.some.injEq] at hl
        subst hl
        rw [hp] at h; cases h
      | cons c r => rw [List.getLast?_cons_cons] at hl; exact ih hl
    · exact hl

/-- What every reachable estimator satisfies. -/
structure Inv (e : Estimator σ υ ζ) : Prop where
  inc : Inc e.st
  len : e.st.length ≤ CAP
  ne : e.st ≠ []
  sorted : MSorted e.ms
  window : ∀ l, e.ms.getLast? = some l → (∀ m ∈ e.ms, l.t - m.t ≤ MAX_DELAY) ∧
    (∀ s ∈ e.st, l.t - s.t ≤ MAX_DELAY + HALF) ∧ ∃ b, e.st.getLast? = some b ∧ l.t - HALF ≤ b.t

theorem insertAndRoll_inv {F : Filter σ υ ζ} {e e' : Estimator σ υ ζ} {m : Meas υ ζ}
    (h : insertAndRoll F e m = .ok e') (hv : Inv e) : Inv e' ∧ e'.ms ≠ [] := by
  unfold insertAndRoll at h
  obtain ⟨st1, h1, h2⟩ := bind_ok h
  obtain ⟨st2, h3, h4⟩ := bind_ok h2
  obtain ⟨p, hp⟩ := rewind_prefix h1
  have i1 : Inc st1 := by
    have := hv.inc
    rw [hp] at this
    exact this.sublist (List.sublist_append_left _ _)
  have l1 : st1.length ≤ CAP := by
    have := hv.len
    rw [hp, List.length_append] at this
    omega
  have hsm := insert_sorted hv.sorted m
  unfold dropOldMeasurements at h4
  dsimp only at h4
  split at h4
  · cases h4
  · rename_i l hl
    obtain ⟨st3, h5, h6⟩ := bind_ok h4
    cases h6
    have hl' : (m :: e.ms.dropWhile (fun x => !m.lt x)).getLast? = some l := by
      rw [List.getLast?_append] at hl
      cases hq : (m :: e.ms.dropWhile (fun x => !m.lt x)).getLast? with
      | none => simp at hq
      | some q => rw [hq] at hl; simpa using hl
    obtain ⟨fi, fl, b, hb, hbt⟩ := rollFilter_fit h3 i1 l1 hl'
    obtain ⟨p, hp, hq, s, q, hr, hs⟩ := popFrontWhile_suffix h5
    have hl2 := dropWhile_tail (p := fun m => keyLt m.t m.z.index (l.t - MAX_DELAY) 0) hl (by
      rw [Bool.eq_false_iff, ne_eq, keyLt_zero]; simp only [MAX_DELAY]; omega)
    have hi3 : Inc st3 := by rw [hp] at fi; exact fi.sublist (List.sublist_append_right _ _)
    refine ⟨⟨hi3, ?_, by rw [hr]; simp, hsm.sublist (List.dropWhile_sublist _), ?_⟩, ?_⟩
    · dsimp only
      rw [hp, List.length_append] at fl
      omega
    · dsimp only
      intro l2 hl3
      rw [hl2] at hl3
      cases hl3
      refine ⟨?_, ?_, b, ?_, hbt⟩
      · intro x hx
        have hsd := hsm.sublist (List.dropWhile_sublist (fun m => keyLt m.t m.z.index (l.t - MAX_DELAY) 0))
        cases hd : (e.ms.takeWhile (fun x => !m.lt x) ++ m :: e.ms.dropWhile (fun x => !m.lt x)).dropWhile
            (fun m => keyLt m.t m.z.index (l.t - MAX_DELAY) 0) with
        | nil => rw [hd] at hx; simp at hx
        | cons c r =>
          have hc := List.head?_dropWhile_not (fun m : Meas υ ζ => keyLt m.t m.z.index (l.t - MAX_DELAY) 0)
            (e.ms.takeWhile (fun x => !m.lt x) ++ m :: e.ms.dropWhile (fun x => !m.lt x))
          rw [hd] at hc hx hsd
          dsimp at hc
          rw [Bool.eq_false_iff, ne_eq, keyLt_zero] at hc
          rw [List.mem_cons] at hx
          rcases hx with rfl | hx
          · omega
          · have := (List.pairwise_cons.1 hsd).1 x hx
            unfold Meas.lt at this
            rw [Bool.eq_false_iff, ne_eq, keyLt_iff] at this
            omega
      · intro x hx
        rw [hr] at hi3 hx
        rw [List.mem_cons] at hx
        rcases hx with rfl | hx
        · omega
        · have := (List.pairwise_cons.1 hi3).1 x hx
          omega
      · rw [hp, List.getLast?_append, hr] at hb
        rw [hr]
        cases hx : (s :: q).getLast? with
        | none => simp at hx
        | some y => rw [hx] at hb; simpa using hb
    · dsimp only
      intro hn
      rw [hn] at hl2
      simp at hl2

theorem addMeasurement_inv {F : Filter σ υ ζ} {e e' : Estimator σ υ ζ} {m : Meas υ ζ} {r : Reply}
    (h : addMeasurement F e m = .ok (r, e')) (hv : Inv e) : Inv e' := by
  unfold addMeasurement at h
  split at h
  · cases h
  · split_ifs at h
    · cases h; exact hv
    · cases h; exact hv
    · obtain ⟨x, h1, h2⟩ := bind_ok h
      cases h2
      exact (insertAndRoll_inv h1 hv).1

theorem run_inv {F : Filter σ υ ζ} : ∀ {ops : List (Op υ ζ)} {e e' : Estimator σ υ ζ},
    run F e ops = .ok e' → Inv e → Inv e' := by
  intro ops
  induction ops with
  | nil => intro e e' h hv; cases h; exact hv
  | cons o r ih =>
    intro e e' h hv
    obtain ⟨x, h1, h2⟩ := bind_ok h
    refine ih h2 ?_
    cases o with
    | meas m =>
      obtain ⟨y, h3, h4⟩ := bind_ok h1
      cases h4
      exact addMeasurement_inv (r := y.1) (by rw [h3]) hv
    | eph c x =>
      dsimp only [step, ephCb] at h1
      split at h1
      · cases h1
      · cases h1
        exact ⟨hv.inc, hv.len, hv.ne, hv.sorted, hv.window⟩

theorem init_inv (t0 : Int) (x0 : σ) (u0 : υ) : Inv (init t0 x0 u0 : Estimator σ υ ζ) :=
  ⟨by simp [Inc, init], by simp [init, CAP], by simp [init], by simp [MSorted, init], by simp [init]⟩

end Verif.Est

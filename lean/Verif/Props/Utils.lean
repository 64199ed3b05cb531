import Verif.Model.Utils
import Mathlib.Tactic.Linarith
import Mathlib.Tactic.FieldSimp
import Mathlib.Tactic.Ring
import Mathlib.Tactic.NormNum
import Mathlib.Data.List.Basic
/-!
# C34, C54-C57, C61: small helpers
-/
namespace Verif.Props.Utils
open Verif.Utils

/-! ### C55 -/

theorem keep_iff (c : Char) (l : List Char) : keep c l = true ↔ c ∉ l := by
  induction l with
  | nil => simp [keep]
  | cons b l ih =>
    rw [keep]
    split
    · rename_i h; simp [h]
    · rename_i h; rw [ih]; simp [Ne.symm h]

/-- **C55.** `strip_string` removes exactly the listed characters and keeps all others in order. -/
theorem C55_strip (s remove : List Char) : stripString s remove = s.filter (fun c => decide (c ∉ remove)) := by
  have h : ∀ s out, stripLoop remove s out = out ++ s.filter (fun c => decide (c ∉ remove)) := by
    intro s
    induction s with
    | nil => intro out; simp [stripLoop]
    | cons c s ih =>
      intro out
      rw [stripLoop, ih]
      by_cases hc : c ∈ remove
      · have : keep c remove = false := by rw [← Bool.not_eq_true, keep_iff]; simpa using hc
        simp [this, hc]
      · have : keep c remove = true := (keep_iff _ _).2 hc
        simp [this, hc]
  exact (h s []).trans (by simp)

example : stripString "a b c".toList [' ', 'c'] = "ab".toList := by decide +kernel

theorem getline_spec (d : Char) (s tok r : List Char) (h : getline d s = some (tok, r)) :
    d ∉ tok ∧ (s = tok ++ d :: r ∨ (s = tok ∧ r = [] ∧ tok ≠ [])) := by
  induction s generalizing tok r with
  | nil => simp [getline] at h
  | cons c s ih =>
    rw [getline] at h
    split at h
    · rename_i hc; simp at h; obtain ⟨rfl, rfl⟩ := h; simp [hc]
    · rename_i hc
      cases hg : getline d s with
      | none =>
        rw [hg] at h; simp at h; obtain ⟨rfl, rfl⟩ := h
        have hs : s = [] := by
          cases s with
          | nil => rfl
          | cons a s =>
            rw [getline] at hg
            split at hg
            · cases hg
            · split at hg <;> cases hg
        subst hs
        simp [Ne.symm hc]
      | some p =>
        obtain ⟨t, r'⟩ := p
        rw [hg] at h
        simp at h; obtain ⟨rfl, rfl⟩ := h
        obtain ⟨h1, h2⟩ := ih t r' hg
        refine ⟨by simp [h1, Ne.symm hc], ?_⟩
        rcases h2 with h2 | ⟨h2, h3, h4⟩
        · left; simp [h2]
        · right; simp [h2, h3]

/-- **C55.** No token contains the delimiter, and writing every token followed by the delimiter
gives back the string, with a final delimiter added if it did not end in one. -/
theorem C55_split (s : List Char) (d : Char) :
    (∀ tok ∈ splitString s d, d ∉ tok) ∧
    (splitString s d).flatMap (fun tok => tok ++ [d])
      = if s = [] ∨ s.getLast? = some d then s else s ++ [d] := by
  obtain ⟨n, hn⟩ : ∃ n, s.length = n := ⟨_, rfl⟩
  induction n using Nat.strongRecOn generalizing s with
  | _ n ih =>
    rw [splitString]
    split
    · rename_i h
      cases s with
      | nil => simp
      | cons c s =>
        rw [getline] at h
        split at h
        · cases h
        · split at h <;> cases h
    · rename_i tok r h
      obtain ⟨h1, h2⟩ := getline_spec d s tok r h
      have hl := getline_length h
      obtain ⟨i1, i2⟩ := ih r.length (by omega) r rfl
      refine ⟨?_, ?_⟩
      · intro t ht
        rcases List.mem_cons.1 ht with rfl | ht
        · exact h1
        · exact i1 t ht
      · rw [List.flatMap_cons, i2]
        rcases h2 with h2 | ⟨h2, h3, h4⟩
        · have hne : s ≠ [] := by rw [h2]; simp
          by_cases hr : r = []
          · subst hr
            rw [if_pos (Or.inl rfl), if_pos]
            · rw [h2]; simp
            · right; rw [h2]; simp
          · have hlast : s.getLast? = r.getLast? := by
              rw [h2, List.getLast?_append_of_ne_nil _ (by simp), List.getLast?_cons]
              cases r with
              | nil => exact absurd rfl hr
              | cons a r => simp [List.getLast?_cons]
            by_cases hd : r.getLast? = some d
            · rw [if_pos (Or.inr hd), if_pos (Or.inr (hlast.trans hd)), h2]; simp
            · rw [if_neg (by simp [hr, hd]), if_neg (by rw [hlast]; simp [hne, hd]), h2]; simp
        · subst h2; subst h3
          have : s.getLast? ≠ some d := by
            intro hh; exact h1 (List.mem_of_getLast? hh)
          rw [if_pos (Or.inl rfl), if_neg (by simp [h4, this])]; simp

/-- **C55.** That determines the tokens: no other list of delimiter-free tokens gives the same
string back. -/
theorem C55_split_unique (d : Char) (l₁ l₂ : List (List Char)) (h₁ : ∀ tok ∈ l₁, d ∉ tok)
    (h₂ : ∀ tok ∈ l₂, d ∉ tok)
    (h : l₁.flatMap (fun tok => tok ++ [d]) = l₂.flatMap (fun tok => tok ++ [d])) : l₁ = l₂ := by
  have key : ∀ (a b x y : List Char), d ∉ a → d ∉ b → a ++ d :: x = b ++ d :: y → a = b ∧ x = y := by
    intro a
    induction a with
    | nil =>
      intro b x y _ hb he
      cases b with
      | nil => simpa using he
      | cons c b => simp at he; exact absurd (he.1 ▸ List.mem_cons_self) hb
    | cons c a ih =>
      intro b x y ha hb he
      cases b with
      | nil => simp at he; exact absurd (he.1 ▸ List.mem_cons_self) ha
      | cons e b =>
        simp at he ha hb
        obtain ⟨rfl, he⟩ := he
        obtain ⟨h1, h2⟩ := ih b x y ha.2 hb.2 he
        exact ⟨by rw [h1], h2⟩
  induction l₁ generalizing l₂ with
  | nil =>
    cases l₂ with
    | nil => rfl
    | cons t l => simp at h
  | cons t l ih =>
    cases l₂ with
    | nil => simp at h
    | cons t2 l2 =>
      simp only [List.flatMap_cons, List.append_assoc, List.singleton_append] at h
      obtain ⟨e1, e2⟩ := key _ _ _ _ (h₁ t (by simp)) (h₂ t2 (by simp)) h
      rw [e1, ih l2 (fun x hx => h₁ x (by simp [hx])) (fun x hx => h₂ x (by simp [hx])) e2]

/-- Empty tokens are kept, except that nothing follows a final delimiter. -/
example : splitString "a//b/".toList '/' = ["a".toList, [], "b".toList] := by
  simp [splitString, getline]

/-! ### C56 -/

/-- Value of a printed stamp: fields from the right are milliseconds, seconds, minutes, hours,
days. -/
def stampValue (f : List PField) : Int :=
  (f.reverse.zip [1, 1000, 60 * 1000, 60 * 60 * 1000, 24 * 60 * 60 * 1000]).foldl (fun a p => a + p.1.1 * p.2) 0

/-- From the right, the fields are below 1000, 60, 60, 24; all but the leftmost are printed with
3, 2, 2 digits, so the text can be read back. -/
def WellFormed (f : List PField) : Prop :=
  ∀ i, i < f.length → ∃ p, f.reverse[i]? = some p ∧ 0 ≤ p.1 ∧
    p.1 < [1000, 60, 60, 24].getD i 0 ∧ (i + 1 < f.length → p.2 = [3, 2, 2].getD i 0)

/-- The full property over every positive duration that fits an `int`. -/
def C56_statement : Prop := ∀ ms : Int, 0 < ms → ms < 2 ^ 31 → stampValue (msToStamp ms) = ms

/-- The number of days is always dropped: it is divided by the length of a day twice. -/
theorem C56_days_dropped_violated (ms : Int) (h0 : 0 < ms) (h1 : ms < 2 ^ 31) :
    stampValue (msToStamp ms) = ms % (24 * 60 * 60 * 1000) := by
  unfold msToStamp
  rw [if_neg (by omega)]
  have e1 : ms.tmod 1000 = ms % 1000 := Int.tmod_eq_emod_of_nonneg (by omega)
  simp only [e1]
  set a := ms % 1000 with ha
  have e2 : ((ms - a).tmod (60 * 1000)).tdiv 1000 = (ms - a) % 60000 / 1000 := by
    rw [Int.tmod_eq_emod_of_nonneg (by omega), Int.tdiv_eq_ediv_of_nonneg (by omega)]; rfl
  simp only [e2]
  set b := (ms - a) % 60000 / 1000 with hb
  have e3 : ((ms - (a + b * 1000)).tmod (60 * 60 * 1000)).tdiv (60 * 1000)
      = (ms - (a + b * 1000)) % 3600000 / 60000 := by
    rw [Int.tmod_eq_emod_of_nonneg (by omega), Int.tdiv_eq_ediv_of_nonneg (by omega)]; rfl
  simp only [e3]
  set c := (ms - (a + b * 1000)) % 3600000 / 60000 with hc
  have e4 : ((ms - (a + (b + c * 60) * 1000)).tmod (24 * 60 * 60 * 1000)).tdiv (60 * 60 * 1000)
      = (ms - (a + (b + c * 60) * 1000)) % 86400000 / 3600000 := by
    rw [Int.tmod_eq_emod_of_nonneg (by omega), Int.tdiv_eq_ediv_of_nonneg (by omega)]; rfl
  simp only [e4]
  set h := (ms - (a + (b + c * 60) * 1000)) % 86400000 / 3600000 with hh
  have e5 : ((ms - (a + (b + (c + h * 60) * 60) * 1000)).tdiv (24 * 60 * 60 * 1000)).tdiv (24 * 60 * 60 * 1000) = 0 := by
    have h2 : 0 ≤ ms - (a + (b + (c + h * 60) * 60) * 1000) := by omega
    rw [Int.tdiv_eq_ediv_of_nonneg h2, Int.tdiv_eq_ediv_of_nonneg (by omega)]
    omega
  simp only [e5]
  rw [if_neg (by omega)]
  split
  · simp [stampValue]; omega
  split
  · simp [stampValue]; omega
  split
  · simp [stampValue]; omega
  · simp [stampValue]; omega

theorem C56_statement_false : ¬ C56_statement := by
  intro h
  have h1 := h 86400001 (by norm_num) (by norm_num)
  rw [C56_days_dropped_violated _ (by norm_num) (by norm_num)] at h1
  norm_num at h1

/-- **C56, partial.** Below one day the printed fields add up to the duration.  (Missing: a day or
longer, where it is false.) -/
theorem C56_stamp_value_partial (ms : Int) (h0 : 0 < ms) (h1 : ms < 24 * 60 * 60 * 1000) :
    stampValue (msToStamp ms) = ms := by
  rw [C56_days_dropped_violated ms h0 (by norm_num at h1 ⊢; omega)]
  omega

/-- **C56, partial.** Below one day every field is in range and has its fixed width. -/
theorem C56_well_formed_partial (ms : Int) (h0 : 0 < ms) (h1 : ms < 24 * 60 * 60 * 1000) :
    WellFormed (msToStamp ms) ∧ msToStamp ms ≠ [] := by
  unfold msToStamp
  rw [if_neg (by omega)]
  have e1 : ms.tmod 1000 = ms % 1000 := Int.tmod_eq_emod_of_nonneg (by omega)
  simp only [e1]
  set a := ms % 1000 with ha
  have e2 : ((ms - a).tmod (60 * 1000)).tdiv 1000 = (ms - a) % 60000 / 1000 := by
    rw [Int.tmod_eq_emod_of_nonneg (by omega), Int.tdiv_eq_ediv_of_nonneg (by omega)]; rfl
  simp only [e2]
  set b := (ms - a) % 60000 / 1000 with hb
  have e3 : ((ms - (a + b * 1000)).tmod (60 * 60 * 1000)).tdiv (60 * 1000)
      = (ms - (a + b * 1000)) % 3600000 / 60000 := by
    rw [Int.tmod_eq_emod_of_nonneg (by omega), Int.tdiv_eq_ediv_of_nonneg (by omega)]; rfl
  simp only [e3]
  set c := (ms - (a + b * 1000)) % 3600000 / 60000 with hc
  have e4 : ((ms - (a + (b + c * 60) * 1000)).tmod (24 * 60 * 60 * 1000)).tdiv (60 * 60 * 1000)
      = (ms - (a + (b + c * 60) * 1000)) % 86400000 / 3600000 := by
    rw [Int.tmod_eq_emod_of_nonneg (by omega), Int.tdiv_eq_ediv_of_nonneg (by omega)]; rfl
  simp only [e4]
  set h := (ms - (a + (b + c * 60) * 1000)) % 86400000 / 3600000 with hh
  have e5 : ((ms - (a + (b + (c + h * 60) * 60) * 1000)).tdiv (24 * 60 * 60 * 1000)).tdiv (24 * 60 * 60 * 1000) = 0 := by
    have h2 : 0 ≤ ms - (a + (b + (c + h * 60) * 60) * 1000) := by omega
    rw [Int.tdiv_eq_ediv_of_nonneg h2, Int.tdiv_eq_ediv_of_nonneg (by omega)]
    omega
  simp only [e5]
  rw [if_neg (by omega)]
  have ra : 0 ≤ a ∧ a < 1000 := by omega
  have rb : 0 ≤ b ∧ b < 60 := by omega
  have rc : 0 ≤ c ∧ c < 60 := by omega
  have rh : 0 ≤ h ∧ h < 24 := by omega
  clear_value a b c h
  split
  · refine ⟨fun i hi => ?_, by simp⟩
    simp at hi
    rcases i with _ | _ | _ | _ | i
    · exact ⟨_, rfl, by simpa using ra⟩
    · exact ⟨_, rfl, by simpa using rb⟩
    · exact ⟨_, rfl, by simpa using rc⟩
    · exact ⟨_, rfl, by simpa using rh⟩
    · omega
  split
  · refine ⟨fun i hi => ?_, by simp⟩
    simp at hi
    rcases i with _ | _ | _ | i
    · exact ⟨_, rfl, by simpa using ra⟩
    · exact ⟨_, rfl, by simpa using rb⟩
    · exact ⟨_, rfl, by simpa using rc⟩
    · omega
  split
  · refine ⟨fun i hi => ?_, by simp⟩
    simp at hi
    rcases i with _ | _ | i
    · exact ⟨_, rfl, by simpa using ra⟩
    · exact ⟨_, rfl, by simpa using rb⟩
    · omega
  · refine ⟨fun i hi => ?_, by simp⟩
    simp at hi
    subst hi
    exact ⟨_, rfl, by simpa using ra⟩

/-- One hour, one minute, one second, one millisecond. -/
example : msToStamp 3661001 = [(1, 0), (1, 2), (1, 2), (1, 3)] := by decide +kernel

/-! ### C54 -/

section Pid
variable {K : Type} [Field K] [LinearOrder K] [IsStrictOrderedRing K]

/-- One call of the controller: time step, measurement, command, integrator flag, and possibly a
measured derivative. -/
structure Call (K : Type) where
  dt : K
  x : K
  xc : K
  upd : Bool
  xdot : Option K

def call (o : PidOpt K) (thr : K) (s : Pid K) (c : Call K) : Pid K × K :=
  match c.xdot with
  | none => pidRun o thr s c.dt c.x c.xc c.upd
  | some v => pidRun5 o s c.dt c.x c.xc c.upd v

/-- States and outputs of a history of calls. -/
def history (o : PidOpt K) (thr : K) : Pid K → List (Call K) → Pid K × List K
  | s, [] => (s, [])
  | s, c :: l =>
    let (s', y) := call o thr s c
    let (s'', ys) := history o thr s' l
    (s'', y :: ys)

theorem run5_bounded (o : PidOpt K) (s : Pid K) (dt x xc : K) (upd : Bool) (xdot : K) (hm : 0 ≤ o.max) :
    -o.max ≤ (pidRun5 o s dt x xc upd xdot).2 ∧ (pidRun5 o s dt x xc upd xdot).2 ≤ o.max := by
  unfold pidRun5
  simp only
  generalize (xc - x) * o.kp - (if o.kd > 0 then o.kd * xdot else 0) + _ = u
  split
  · constructor <;> linarith
  · split
    · constructor <;> linarith
    · constructor <;> linarith

theorem call_bounded (o : PidOpt K) (thr : K) (s : Pid K) (c : Call K) (hm : 0 ≤ o.max) :
    -o.max ≤ (call o thr s c).2 ∧ (call o thr s c).2 ≤ o.max := by
  unfold call
  split
  · unfold pidRun; exact run5_bounded _ _ _ _ _ _ _ hm
  · exact run5_bounded _ _ _ _ _ _ _ hm

/-- The full property of one call: the output is bounded, and if the integral term is what drives
the output into saturation, the integrator is set so that the unsaturated output is the limit. -/
def C54_statement : Prop :=
  ∀ (o : PidOpt ℚ) (s : Pid ℚ) (dt x xc : ℚ) (xdot : ℚ), 0 ≤ o.max → 0 < o.ki → 0 < o.kd →
    let (s', y) := pidRun5 o s dt x xc true xdot
    let pd := (xc - x) * o.kp - o.kd * xdot
    (-o.max ≤ y ∧ y ≤ o.max) ∧
    (|pd| ≤ o.max → |pd + o.ki * (s.integrator + (xc - x) * dt)| > o.max →
      pd + o.ki * s'.integrator = y)

/-- **C54, partial.** Every output of every history of calls lies in [-max, max].  (Missing: the
anti-windup clause, which is false.) -/
theorem C54_output_bounded_partial (o : PidOpt K) (thr : K) (hm : 0 ≤ o.max) (s : Pid K) (l : List (Call K)) :
    ∀ y ∈ (history o thr s l).2, -o.max ≤ y ∧ y ≤ o.max := by
  induction l generalizing s with
  | nil => simp [history]
  | cons c l ih =>
    intro y hy
    rw [history] at hy
    simp only [List.mem_cons] at hy
    rcases hy with rfl | hy
    · exact call_bounded o thr s c hm
    · exact ih _ y hy

/-- The anti-windup branch can never be taken: the integrator always ends up as the plain running
sum, whatever the saturation. -/
theorem C54_never_pulled_back_violated (o : PidOpt K) (s : Pid K) (dt x xc xdot : K) (h : 0 < o.ki) :
    (pidRun5 o s dt x xc true xdot).1.integrator = s.integrator + (xc - x) * dt := by
  unfold pidRun5
  simp only [h, gt_iff_lt, and_self, if_true]
  rw [if_neg]
  rintro ⟨_, h2, _⟩
  refine absurd h2 (not_lt.2 (le_of_eq (congrArg _ ?_)))
  ring

/-- A constant error makes the integrator grow without bound while the output stays at the limit. -/
theorem C54_windup_violated (n : Nat) :
    let o : PidOpt ℚ := ⟨0, 1, 0, 1, 1⟩
    (history o 0 pidInit (List.replicate n ⟨1, 0, 1, true, some 0⟩)).1.integrator = n := by
  intro o
  have : ∀ (s : Pid ℚ), (history o 0 s (List.replicate n ⟨1, 0, 1, true, some 0⟩)).1.integrator
      = s.integrator + n := by
    induction n with
    | zero => intro s; simp [history]
    | succ n ih =>
      intro s
      rw [List.replicate_succ, history]
      simp only
      rw [ih]
      have e : (call o 0 s ⟨1, 0, 1, true, some 0⟩).1.integrator = s.integrator + (1 - 0) * 1 :=
        C54_never_pulled_back_violated o s 1 0 1 0 (by norm_num [o])
      rw [e]; push_cast; ring
  rw [this]; simp [pidInit]

theorem C54_statement_false : ¬ C54_statement := by
  intro h
  have h1 := h ⟨0, 1, 1, 1, 1⟩ ⟨5, 0, 0⟩ 1 0 1 0 (by norm_num) (by norm_num) (by norm_num)
  have h2 := C54_never_pulled_back_violated (⟨0, 1, 1, 1, 1⟩ : PidOpt ℚ) ⟨5, 0, 0⟩ 1 0 1 0 (by norm_num)
  revert h1
  simp only [h2]
  norm_num [pidRun5]

/-- **C54.** Away from saturation the output is the PID law. -/
theorem C54_unsaturated_output (o : PidOpt K) (s : Pid K) (dt x xc xdot : K) (hki : 0 < o.ki) (hkd : 0 < o.kd)
    (h1 : |(xc - x) * o.kp - o.kd * xdot + o.ki * (s.integrator + (xc - x) * dt)| ≤ o.max) :
    (pidRun5 o s dt x xc true xdot).2
      = (xc - x) * o.kp - o.kd * xdot + o.ki * (s.integrator + (xc - x) * dt) := by
  unfold pidRun5
  simp only [hki, hkd, gt_iff_lt, and_self, if_true]
  rw [abs_le] at h1
  rw [if_neg (by linarith), if_neg (by linarith)]

example : (pidRun5 (⟨2, 1, 1, 10, 1⟩ : PidOpt ℚ) ⟨3, 0, 0⟩ 1 0 1 true (1/2)).2 = 11/2 := by
  norm_num [pidRun5]

end Pid

/-! ### C61 -/

section Sat
variable {T : Type} [LinearOrder T]

/-- **C61.** `sat` lands in the interval. -/
theorem C61_sat_range (x lo hi : T) (h : lo ≤ hi) : lo ≤ sat x lo hi ∧ sat x lo hi ≤ hi := by
  unfold sat
  split
  · exact ⟨h, le_refl _⟩
  · split
    · exact ⟨le_refl _, h⟩
    · rename_i h1 h2; exact ⟨not_lt.1 h2, not_lt.1 h1⟩

/-- **C61.** Values inside are left alone; values outside go to the nearer end. -/
theorem C61_sat_value (x lo hi : T) (h : lo ≤ hi) :
    (lo ≤ x → x ≤ hi → sat x lo hi = x) ∧ (x ≤ lo → sat x lo hi = lo) ∧ (hi ≤ x → sat x lo hi = hi) := by
  unfold sat
  refine ⟨fun h1 h2 => ?_, fun h1 => ?_, fun h1 => ?_⟩
  · rw [if_neg (not_lt.2 h2), if_neg (not_lt.2 h1)]
  · rw [if_neg (not_lt.2 (le_trans h1 h))]
    split
    · rfl
    · rename_i h2; exact le_antisymm h1 (not_lt.1 h2)
  · split
    · rfl
    · rename_i h2
      have : x = hi := le_antisymm (not_lt.1 h2) h1
      rw [if_neg (not_lt.2 (this ▸ h))]; exact this

/-- **C61.** `sat` is idempotent and monotone. -/
theorem C61_sat_idem_mono (x y lo hi : T) (h : lo ≤ hi) :
    sat (sat x lo hi) lo hi = sat x lo hi ∧ (x ≤ y → sat x lo hi ≤ sat y lo hi) := by
  obtain ⟨h1, h2⟩ := C61_sat_range x lo hi h
  refine ⟨(C61_sat_value _ lo hi h).1 h1 h2, fun hxy => ?_⟩
  rcases le_total x lo with hx | hx
  · rw [(C61_sat_value x lo hi h).2.1 hx]; exact (C61_sat_range y lo hi h).1
  rcases le_total hi y with hy | hy
  · rw [(C61_sat_value y lo hi h).2.2 hy]; exact h2
  · rw [(C61_sat_value x lo hi h).1 hx (le_trans hxy hy), (C61_sat_value y lo hi h).1 (le_trans hx hxy) hy]
    exact hxy

example : sat (7 : Int) (-2) 5 = 5 ∧ sat (-7 : Int) (-2) 5 = -2 ∧ sat (3 : Int) (-2) 5 = 3 := by decide

/-- **C61.** `sign x` is 1 or -1, never 0, and multiplies the magnitude back to `x`. -/
theorem C61_sign [Ring T] [IsStrictOrderedRing T] (x : T) :
    (sign x = 1 ∨ sign x = -1) ∧ sign x * |x| = x ∧ (sign x = 1 ↔ 0 ≤ x) := by
  unfold sign
  rcases le_or_gt 0 x with h | h
  · rw [if_pos h, if_neg (not_lt.2 h), abs_of_nonneg h]; simp [h]
  · rw [if_neg (not_le.2 h), if_pos h, abs_of_neg h]
    refine ⟨Or.inr (by simp), by simp, ?_⟩
    constructor
    · intro h1; exfalso; simp at h1
      have : (0 : T) < 1 := zero_lt_one
      have h2 : (-1 : T) < 0 := neg_lt_zero.2 this
      rw [h1] at h2; exact absurd h2 (not_lt.2 (le_of_lt this))
    · intro h1; exact absurd h1 (not_le.2 h)

end Sat

/-! ### C57 -/

def Finite (x : Dbl) : Prop := ∃ v, x = .fin v

/-- The full property. -/
def C57_statement : Prop := ∀ (r c : Nat) (m : Fin r → Fin c → Dbl), isFinite m = true ↔ ∀ i j, Finite (m i j)

theorem dbl_eq_self (x : Dbl) : x.eq x = true ↔ x ≠ .nan := by
  cases x <;> simp [Dbl.eq]

/-- **C57, partial.** `isFinite` holds exactly when no entry is NaN, and `isNan` is its negation; so
it accepts every finite matrix.  (Missing: rejection of infinite entries, which is false.) -/
theorem C57_isFinite_partial (r c : Nat) (m : Fin r → Fin c → Dbl) :
    (isFinite m = true ↔ ∀ i j, m i j ≠ .nan) ∧ (isNan m = !isFinite m) ∧
      ((∀ i j, Finite (m i j)) → isFinite m = true) := by
  have h1 : isFinite m = true ↔ ∀ i j, m i j ≠ .nan := by
    unfold isFinite
    simp [dbl_eq_self]
  refine ⟨h1, ?_, fun h => h1.2 fun i j => ?_⟩
  · unfold isNan isFinite
    simp only [List.not_all_eq_any_not]
  · obtain ⟨v, hv⟩ := h i j; rw [hv]; simp

/-- An infinite entry is accepted. -/
theorem C57_infinite_violated : isFinite (fun (_ _ : Fin 1) => Dbl.inf false) = true := by decide

theorem C57_statement_false : ¬ C57_statement := by
  intro h
  obtain ⟨v, hv⟩ := (h 1 1 _).1 C57_infinite_violated 0 0
  cases hv

example : isFinite (fun (_ _ : Fin 2) => Dbl.nan) = false := by decide

/-! ### C34 -/

section Argsort
variable {K : Type} [LinearOrder K]

theorem store_spec (l : List (Nat × K)) (i : Nat) (ind : Nat → Nat) (hnd : (l.map Prod.fst).Nodup) :
    (∀ k (h : k < l.length), argsortStore l i ind (l[k].1) = i + k) ∧
    (∀ j, j ∉ l.map Prod.fst → argsortStore l i ind j = ind j) := by
  induction l generalizing i ind with
  | nil => simp [argsortStore]
  | cons p l ih =>
    rw [List.map_cons, List.nodup_cons] at hnd
    obtain ⟨i1, i2⟩ := ih (i + 1) (fun j => if j = p.1 then i else ind j) hnd.2
    constructor
    · intro k hk
      cases k with
      | zero =>
        rw [argsortStore]
        simp only [List.getElem_cons_zero]
        rw [i2 _ hnd.1]; simp
      | succ k =>
        rw [argsortStore]
        simp only [List.getElem_cons_succ]
        rw [i1 k (by simpa using hk)]; omega
    · intro j hj
      rw [argsortStore, i2 j (by simp at hj ⊢; exact hj.2)]
      simp at hj
      simp [hj.1]

/-- **C34.** Whatever order `std::sort` gives to equal keys, the result of `argsort` is a permutation
`π` of the indices, and the vector that has `x(i)` at position `π(i)` (which is what Eigen's
`perm * x` computes) is `x` sorted in ascending order. -/
theorem C34_argsort (x : List K) (junk : Nat → Nat) (sorted : List (Nat × K))
    (h : SortedBy sorted (argsortData x)) :
    ∃ y : List K, y.length = x.length ∧ y.Perm x ∧ y.Pairwise (· ≤ ·) ∧
      (∀ i (hi : i < x.length), argsort sorted junk i < x.length ∧
        y[argsort sorted junk i]? = some x[i]) ∧
      (∀ i j, i < x.length → j < x.length → argsort sorted junk i = argsort sorted junk j → i = j) := by
  obtain ⟨hp, hs⟩ := h
  have hfst : (argsortData x).map Prod.fst = List.range x.length := by
    unfold argsortData
    rw [List.map_map]
    have : (Prod.fst ∘ fun p : K × Nat => (p.2, p.1)) = Prod.snd := rfl
    rw [this, List.zipIdx_map_snd, List.range_eq_range']
  have hsnd : (argsortData x).map Prod.snd = x := by
    unfold argsortData
    rw [List.map_map]
    have : (Prod.snd ∘ fun p : K × Nat => (p.2, p.1)) = Prod.fst := rfl
    rw [this, List.zipIdx_map_fst]
  have hlen : sorted.length = x.length := by
    rw [hp.length_eq]; simp [argsortData]
  have hnd : (sorted.map Prod.fst).Nodup := by
    rw [(hp.map Prod.fst).nodup_iff, hfst]; exact List.nodup_range
  obtain ⟨s1, _⟩ := store_spec sorted 0 junk hnd
  have hidx : ∀ i (hi : i < x.length), ∃ k, ∃ hk : k < sorted.length, sorted[k] = (i, x[i]) := by
    intro i hi
    have hm : (i, x[i]) ∈ argsortData x := by
      unfold argsortData
      rw [List.mem_map]
      exact ⟨(x[i], i), by rw [List.mk_mem_zipIdx_iff_getElem?]; simp [hi], rfl⟩
    have := hp.mem_iff.2 hm
    obtain ⟨k, hk, e⟩ := List.getElem_of_mem this
    exact ⟨k, hk, e⟩
  have hval : ∀ i (hi : i < x.length), ∃ k, ∃ hk : k < sorted.length, sorted[k] = (i, x[i]) ∧
      argsort sorted junk i = k := by
    intro i hi
    obtain ⟨k, hk, e⟩ := hidx i hi
    refine ⟨k, hk, e, ?_⟩
    have := s1 k hk
    rw [e] at this
    simpa [argsort] using this
  refine ⟨sorted.map Prod.snd, by simp [hlen], ?_, ?_, ?_, ?_⟩
  · have := hp.map Prod.snd
    rwa [hsnd] at this
  · rw [List.pairwise_map]; exact hs
  · intro i hi
    obtain ⟨k, hk, e, hv⟩ := hval i hi
    rw [hv]
    refine ⟨by omega, ?_⟩
    rw [List.getElem?_map, List.getElem?_eq_getElem hk, e]; rfl
  · intro i j hi hj he
    obtain ⟨k, hk, e, hv⟩ := hval i hi
    obtain ⟨k', hk', e', hv'⟩ := hval j hj
    have hkk : k = k' := by rw [← hv, ← hv', he]
    subst hkk
    have := e.symm.trans e'
    simpa using congrArg Prod.fst this

/-- Three values with a tie. -/
example : SortedBy [(1, (2 : Int)), (0, 5), (2, 5)] (argsortData [5, 2, 5]) ∧
    (List.range 3).map (argsort [(1, (2 : Int)), (0, 5), (2, 5)] fun _ => 99) = [1, 0, 2] := by
  unfold SortedBy; decide

end Argsort

end Verif.Props.Utils

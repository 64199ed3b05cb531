import Verif.Spec.TestRunner
import Mathlib.Data.List.Dedup
import Mathlib.Tactic.Common

/-!
# C144: the tests are run and a failure is told
-/

namespace Verif.Props.TestRunner

open Verif.Model.TestRunner Verif.Spec.TestRunner

/-! ### The loop -/

theorem readLine_line (t r : List Char) (h : OneLine t) : readLine (t ++ '\n' :: r) = some (t, r) := by
  induction t with
  | nil => simp [readLine]
  | cons c t ih =>
    simp only [OneLine, List.mem_cons, not_or] at h
    rw [List.cons_append, readLine, if_neg (Ne.symm h.1), ih h.2]
    rfl

theorem readLine_none (t : List Char) (h : OneLine t) : readLine t = none := by
  induction t with
  | nil => rfl
  | cons c t ih =>
    simp only [OneLine, List.mem_cons, not_or] at h
    rw [readLine, if_neg (Ne.symm h.1), ih h.2]
    rfl

/-- The lines as a file. -/
def file (ts : List (List Char)) : List Char := ts.flatMap fun t => t ++ ['\n']

theorem file_cons (t : List Char) (ts : List (List Char)) : file (t :: ts) = t ++ '\n' :: file ts := by
  simp [file]

theorem loop_lines (prog : List Char → Prog) (ts : List (List Char)) (h1 : ∀ t ∈ ts, OneLine t) (h2 : ∀ t ∈ ts, (prog t).eats = 0)
    (last : List Char) (hl : OneLine last) :
    ∀ n, (file ts ++ last).length ≤ n → ∀ s, loop prog n (file ts ++ last) s =
      ⟨if ∀ t ∈ ts, (prog t).status = 0 then s.exit else 1,
        s.passed ++ ts.filter (fun t => decide ((prog t).status = 0)),
        s.failed ++ ts.filter (fun t => decide ((prog t).status ≠ 0))⟩ := by
  induction ts with
  | nil =>
    intro n _ s
    cases n with
    | zero => simp [loop]
    | succ n => simp [loop, file, readLine_none last hl]
  | cons t ts ih =>
    intro n hn s
    cases n with
    | zero =>
      rw [file_cons] at hn
      simp at hn
    | succ n =>
      have hn' : (file ts ++ last).length ≤ n := by
        rw [file_cons] at hn
        simp only [List.append_assoc, List.cons_append, List.length_append, List.length_cons] at hn ⊢
        omega
      rw [file_cons, List.append_assoc, List.cons_append, loop, readLine_line _ _ (h1 t (by simp))]
      simp only [h2 t (by simp), List.drop_zero]
      rw [ih (fun t ht => h1 t (by simp [ht])) (fun t ht => h2 t (by simp [ht])) n hn']
      by_cases h : (prog t).status = 0
      · simp [h]
      · simp [h]

/-- When no program reads its standard input, every program of the list is run, in order, and the script fails if and only if one of
them does. -/
theorem C144_runs (prog : List Char → Prog) (ts : List (List Char)) (h1 : ∀ t ∈ ts, OneLine t) (h2 : ∀ t ∈ ts, (prog t).eats = 0) :
    Right prog ts (runTests prog (some (file ts))) ∧ (runTests prog (some (file ts))).exit ≤ 1 ∧
      (verdict (runTests prog (some (file ts))) = "All tests passed!" ↔ ∀ t ∈ ts, (prog t).status = 0) := by
  have h := loop_lines prog ts h1 h2 [] (by simp [OneLine]) (file ts ++ []).length (Nat.le_refl _) ⟨0, [], []⟩
  simp only [List.append_nil, List.nil_append] at h
  have he : runTests prog (some (file ts)) = loop prog (file ts).length (file ts) ⟨0, [], []⟩ := rfl
  rw [he, h]
  refine ⟨⟨?_, ?_, ?_⟩, ?_, ?_⟩
  · split <;> rename_i hh
    · exact ⟨fun _ => hh, fun _ => rfl⟩
    · exact ⟨fun h => absurd h (by simp), fun h => absurd h hh⟩
  · intro t; simp
  · intro t; simp
  · split <;> simp
  · simp only [verdict]
    by_cases hh : ∀ t ∈ ts, (prog t).status = 0
    · rw [if_pos hh]; simpa using hh
    · rw [if_neg hh]
      exact ⟨fun h => absurd h (by rw [if_neg (by omega)]; decide), fun h => absurd h hh⟩

/-- A program after the last end of line is not run. -/
theorem C144_lastline (prog : List Char → Prog) (ts : List (List Char)) (h1 : ∀ t ∈ ts, OneLine t) (h2 : ∀ t ∈ ts, (prog t).eats = 0)
    (last : List Char) (hl : OneLine last) : runTests prog (some (file ts ++ last)) = runTests prog (some (file ts)) := by
  have h := loop_lines prog ts h1 h2 last hl _ (Nat.le_refl _) ⟨0, [], []⟩
  have h' := loop_lines prog ts h1 h2 [] (by simp [OneLine]) (file ts ++ []).length (Nat.le_refl _) ⟨0, [], []⟩
  show loop _ _ _ _ = loop _ _ _ _
  rw [h]
  simp only [List.append_nil] at h'
  rw [h']

/-- Without the list nothing is run and all tests are said to have passed. -/
theorem C144_missing_violated (prog : List Char → Prog) :
    (runTests prog none).exit = 0 ∧ verdict (runTests prog none) = "All tests passed!" ∧ (runTests prog none).passed = [] :=
  ⟨rfl, rfl, rfl⟩

/-- A program that reads its standard input takes the rest of the list: what would fail after it is not run, and all tests are said to
have passed. -/
theorem C144_stdin_violated (prog : List Char → Prog) (t : List Char) (h1 : OneLine t) (h0 : (prog t).status = 0) (ts : List (List Char))
    (he : (file ts).length ≤ (prog t).eats) :
    runTests prog (some (file (t :: ts))) = ⟨0, [t], []⟩ := by
  show loop prog (file (t :: ts)).length (file (t :: ts)) _ = _
  have : (file (t :: ts)).length = (t.length + (file ts).length) + 1 := by
    rw [file_cons, List.length_append, List.length_cons]; omega
  rw [this, file_cons, loop, readLine_line _ _ h1]
  simp only [h0, ne_eq, not_true_eq_false, if_false, List.drop_of_length_le he, List.nil_append]
  cases t.length + (file ts).length <;> rfl

/-! ### The list -/

theorem make_eq (order : List (List Char)) (hd : order.Nodup) : ∀ b : Build, make order b =
    ⟨b.linked ++ order.filter (fun t => decide (t ∉ b.linked)), b.list ++ order.filter (fun t => decide (t ∉ b.linked)),
      b.script ++ order.filter (fun t => decide (t ∉ b.linked))⟩ := by
  induction order with
  | nil => intro b; simp [make]
  | cons t order ih =>
    intro b
    have hd' := List.nodup_cons.1 hd
    show make order (link b t) = _
    rw [ih hd'.2]
    by_cases h : t ∈ b.linked
    · simp [link, h]
    · have hf : order.filter (fun x => decide (x ∉ b.linked ++ [t])) = order.filter (fun x => decide (x ∉ b.linked)) := by
        refine List.filter_congr fun x hx => ?_
        have : x ≠ t := fun e => hd'.1 (e ▸ hx)
        simp [this]
      simp only [link, h, if_false, hf]
      simp [h]

/-- A directory without anything. -/
def empty : Build := ⟨[], [], []⟩

/-- After cmake and make in a fresh directory the list holds every test once, in whatever order they were linked; with `C144_runs` every
test is run. -/
theorem C144_fresh (order : List (List Char)) (hd : order.Nodup) (hne : order ≠ []) (h1 : ∀ t ∈ order, OneLine t) (prog : List Char → Prog)
    (h2 : ∀ t ∈ order, (prog t).eats = 0) :
    (make order (configure empty)).list = order ∧
      Right prog order (runTests prog (listFile (make order (configure empty)))) := by
  have h : (make order (configure empty)).list = order := by
    rw [make_eq order hd]
    simp [configure, empty]
  refine ⟨h, ?_⟩
  rw [listFile, h, if_neg hne]
  exact (C144_runs prog order h1 h2).1

/-- When sources change and make runs again (without cmake), every test is still in the list and run. -/
theorem C144_incremental (order order' : List (List Char)) (hd : order.Nodup) (hd' : order'.Nodup) (hp : ∀ t, t ∈ order' ↔ t ∈ order)
    (hne : order ≠ []) (h1 : ∀ t ∈ order, OneLine t) (s : List (List Char)) (prog : List Char → Prog) (h2 : ∀ t ∈ order, (prog t).eats = 0) :
    Right prog order (runTests prog (listFile (make order' (touch s (make order (configure empty)))))) := by
  set b := make order' (touch s (make order (configure empty))) with hb
  have hl : ∀ t, t ∈ b.list ↔ t ∈ order := by
    intro t
    rw [hb, make_eq order' hd', make_eq order hd]
    simp only [touch, configure, empty, List.mem_append, List.mem_filter]
    constructor
    · rintro (h | h)
      · simpa using h
      · exact (hp t).1 h.1
    · intro h
      left
      simpa using h
  have hbne : b.list ≠ [] := by
    obtain ⟨t, ht⟩ := List.exists_mem_of_ne_nil _ hne
    exact List.ne_nil_of_mem ((hl t).2 ht)
  rw [listFile, if_neg hbne]
  have := (C144_runs prog b.list (fun t ht => h1 t ((hl t).1 ht)) (fun t ht => h2 t ((hl t).1 ht))).1
  simp only [Right, hl] at this
  exact this

/-- When a CMakeLists.txt changes, cmake empties the list, and make fills it with the tests that it links again: the others are not run,
whether they fail or not. -/
theorem C144_reconfigure_violated (order order' : List (List Char)) (hd : order.Nodup) (hd' : order'.Nodup)
    (hp : ∀ t, t ∈ order' ↔ t ∈ order) (s : List (List Char)) (prog : List Char → Prog) (h1 : ∀ t ∈ order, OneLine t)
    (h2 : ∀ t ∈ order, (prog t).eats = 0) (hs : ∀ t ∈ order, t ∈ s → (prog t).status = 0) :
    (make order' (touch s (configure (make order (configure empty))))).list = order'.filter (fun t => decide (t ∈ s)) ∧
      (runTests prog (listFile (make order' (touch s (configure (make order (configure empty))))))).exit = 0 := by
  set b := make order' (touch s (configure (make order (configure empty)))) with hb
  have hl : b.list = order'.filter (fun t => decide (t ∈ s)) := by
    rw [hb, make_eq order' hd', make_eq order hd]
    simp only [touch, configure, empty, List.nil_append]
    refine List.filter_congr fun t ht => ?_
    have := (hp t).1 ht
    simp [this]
  refine ⟨hl, ?_⟩
  rw [listFile]
  split
  · rfl
  · have hm : ∀ t ∈ b.list, t ∈ order ∧ t ∈ s := by
      intro t ht
      rw [hl, List.mem_filter, decide_eq_true_eq] at ht
      exact ⟨(hp t).1 ht.1, ht.2⟩
    exact (C144_runs prog b.list (fun t ht => h1 t (hm t ht).1) (fun t ht => h2 t (hm t ht).1)).1.1.2
      fun t ht => hs t (hm t ht).1 (hm t ht).2

/-- The exit status of the script `run_tests` that cmake writes is that of the last program: failures before it are not told. -/
theorem C144_script_violated (prog : List Char → Prog) (b : Build) (ts : List (List Char)) (t : List Char) (h : b.script = ts ++ [t]) :
    runScript prog b = (prog t).status := by
  rw [runScript, h, List.foldl_append]
  rfl

/-! ### Registered tests -/

/-- Every file with tests is registered, except two: the tests of utils/test_utctime.cxx and symb_matrix_test.py are never run. -/
theorem C144_registered_violated :
    (testFiles.filter fun f => decide (f ∉ registered)) = ["core/ekf/ekf_gen/symb_matrix_test.py", "utils/test_utctime.cxx"] ∧
      registered.Nodup ∧ ∀ f ∈ registered, f ∈ testFiles := by
  refine ⟨by decide +kernel, by decide +kernel, by decide +kernel⟩

/-- The full statement: after any number of changes, cmake and make, a failing test makes the runner fail. -/
def C144_statement : Prop :=
  ∀ (order : List (List Char)) (prog : List Char → Prog) (s : List (List Char)), order.Nodup → (∀ t ∈ order, OneLine t) →
    (∀ t ∈ order, (prog t).eats = 0) →
    Right prog order (runTests prog (listFile (make order (touch s (configure (make order (configure empty)))))))

/-- One test that fails and whose sources did not change. -/
theorem C144_statement_false : ¬ C144_statement := by
  intro h
  have h1 := h [['a']] (fun _ => ⟨1, 0⟩) [] (by simp) (by simp [OneLine]) (by simp)
  have h2 := C144_reconfigure_violated [['a']] [['a']] (by simp) (by simp) (by simp) [] (fun _ => ⟨1, 0⟩) (by simp [OneLine]) (by simp)
    (by simp)
  exact absurd (h1.1.1 h2.2 ['a'] (by simp)) (by simp)

/-- Three programs, the second fails. -/
example : runTests (fun t => ⟨if t = ['b'] then 3 else 0, 0⟩) (some (file [['a'], ['b'], ['c']])) = ⟨1, [['a'], ['c']], [['b']]⟩ := by
  decide

end Verif.Props.TestRunner

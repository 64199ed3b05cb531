import Verif.Model.Messages
import Verif.Spec.Messages

/-!
# C124: messages

What formatting does for every text with holes; what every call of a message function in the
program prints; the two calls that do not print their text, one of which throws and with it
interrupts the receiver (C22).
-/
namespace Verif.Props.Messages
open Verif.Messages Verif.MessagesSpec

/-! ## Formatting -/

theorem pre_pre (p q : List Char) (o : Out) : (o.pre q).pre p = o.pre (p ++ q) := by
  cases o <;> simp [Out.pre]

theorem pre_nil (o : Out) : o.pre [] = o := by cases o <;> simp [Out.pre]

theorem format_char (c : Char) (r : List Char) (vs : List (List Char)) (h1 : c ≠ '{')
    (h2 : c ≠ '}') : format (c :: r) vs = (format r vs).pre [c] := by
  rw [format.eq_def]
  split <;> simp_all

theorem format_text (t r : List Char) (vs : List (List Char)) (h : Plain t) :
    format (t ++ r) vs = (format r vs).pre t := by
  induction t with
  | nil => simp [pre_nil]
  | cons c t ih =>
    have hc := h c (by simp)
    rw [List.cons_append, format_char c _ vs hc.1 hc.2,
      ih (fun x hx => h x (List.mem_cons_of_mem _ hx)), pre_pre]
    rfl

theorem format_hole (r v : List Char) (vs : List (List Char)) :
    format ('{' :: '}' :: r) (v :: vs) = (format r vs).pre v := by
  simp [format]

theorem format_hole_nil (r : List Char) : format ('{' :: '}' :: r) [] = .throws := by
  simp [format]

theorem format_plain (t : List Char) (vs : List (List Char)) (h : Plain t) :
    format t vs = .ok t := by
  have := format_text t [] vs h
  rw [List.append_nil] at this
  rw [this, format.eq_def]
  simp [Out.pre]

/-- Formatting fills the holes of any text without other braces, in order, if there are enough
values, and throws if there are not. -/
theorem C124_format (ps : List (List Char)) (vs : List (List Char)) (hp : ∀ t ∈ ps, Plain t) :
    (ps.length ≤ vs.length + 1 → format (template ps) vs = .ok (fill ps vs)) ∧
      (vs.length + 1 < ps.length → format (template ps) vs = .throws) := by
  induction ps generalizing vs with
  | nil => constructor <;> intro h <;> simp_all [template, fill, format.eq_def]
  | cons t ts ih =>
    have ht := hp t (by simp)
    have hts : ∀ t ∈ ts, Plain t := fun x hx => hp x (List.mem_cons_of_mem _ hx)
    cases ts with
    | nil =>
      constructor
      · intro _
        exact format_plain t vs ht
      · intro h
        simp at h
    | cons u us =>
      have e : template (t :: u :: us) = t ++ ('{' :: '}' :: template (u :: us)) := by
        simp [template]
      rw [e, format_text _ _ _ ht]
      cases vs with
      | nil =>
        rw [format_hole_nil]
        constructor
        · intro h
          simp at h
        · intro _
          rfl
      | cons v vs =>
        rw [format_hole]
        obtain ⟨h1, h2⟩ := ih vs hts
        constructor
        · intro h
          rw [h1 (by simp at h ⊢; omega)]
          simp [Out.pre, fill]
        · intro h
          rw [h2 (by simp at h ⊢; omega)]
          rfl

/-- Three pieces and two values. -/
example : format "Unknown {} Satellite {}".toList ["GPS".toList, "7".toList] =
    .ok "Unknown GPS Satellite 7".toList := by decide +kernel

/-! ## The calls -/

/-- The pieces of a text. -/
def pieces : List Char → Option (List (List Char))
  | [] => some [[]]
  | '{' :: '}' :: r => (pieces r).map ([] :: ·)
  | '{' :: _ => none
  | '}' :: _ => none
  | c :: r =>
    match pieces r with
    | some (t :: ts) => some ((c :: t) :: ts)
    | _ => none

theorem pieces_sound (s : List Char) (ps : List (List Char)) (h : pieces s = some ps) :
    ps ≠ [] ∧ template ps = s ∧ ∀ t ∈ ps, Plain t := by
  fun_induction pieces s generalizing ps with
  | case1 =>
    obtain rfl := Option.some.inj h
    refine ⟨by simp, rfl, ?_⟩
    intro t ht
    simp at ht
    subst ht
    intro c hc
    simp at hc
  | case2 r ih =>
    obtain ⟨qs, hq, rfl⟩ := Option.map_eq_some_iff.1 h
    obtain ⟨h1, h2, h3⟩ := ih qs hq
    refine ⟨by simp, ?_, ?_⟩
    · cases qs with
      | nil => exact absurd rfl h1
      | cons q qs => simp [template, h2]
    · intro t ht
      rcases List.mem_cons.1 ht with rfl | ht
      · intro c hc
        simp at hc
      · exact h3 t ht
  | case3 => simp at h
  | case4 => simp at h
  | case5 c r hb1 hb2 hb3 t ts hr ih =>
    obtain rfl := Option.some.inj h
    obtain ⟨h1, h2, h3⟩ := ih _ hr
    have hc : c ≠ '{' ∧ c ≠ '}' := ⟨by simpa using hb2, by simpa using hb3⟩
    refine ⟨by simp, ?_, ?_⟩
    · rw [← h2]
      cases ts <;> simp [template]
    · intro x hx
      rcases List.mem_cons.1 hx with rfl | hx
      · intro d hd
        rcases List.mem_cons.1 hd with rfl | hd
        · exact hc
        · exact h3 t (by simp) d hd
      · exact h3 x (List.mem_cons_of_mem _ hx)
  | case6 => simp at h

/-- The shapes of the calls. -/
def shape (s : Site) : Bool :=
  match s.fn, s.args with
  | .check, [.cond] => true
  | .check, [.cond, .lit _] => true
  | .check, [.cond, .lit _, .store _] => true
  | .check, _ => false
  | .weak_check, _ => false
  | _, [.lit _] => true
  | _, [.lit _, .store _] => true
  | _, _ => false

/-- A call whose text has as many holes as there are values. -/
def regular (s : Site) : Bool :=
  shape s && (match pieces (ownText s.args) with
    | some ps => ps.length = numVals s.args + 1
    | none => false)

/-- The two other calls. -/
def ubx232 : Site := ⟨"parsers/ubx/ubx.cxx", 232, .warn, overlong⟩
def simulate115 : Site := ⟨"sim/simulate.cxx", 115, .info, [.lit "wrote log to {}", .str]⟩

theorem sites_regular :
    ∀ s ∈ sites, s ≠ ubx232 → s ≠ simulate115 → regular s = true := by
  decide +kernel

theorem sites_others : ubx232 ∈ sites ∧ simulate115 ∈ sites := by decide +kernel

/-- What a call should do: print its own text with the values in its holes if the severity is
at least the level; `check` then ends the program if the condition is false. -/
def Proper (lvl : Nat) (s : Site) (cond : Bool) (str : List Char) (vals : List (List Char)) :
    Prop :=
  ∃ ps, template ps = ownText s.args ∧ (∀ t ∈ ps, Plain t) ∧ ps.length = numVals s.args + 1 ∧
    call lvl s.fn s.args cond str vals =
      (let printed := if lvl ≤ severity s.fn then some (fill ps vals) else none
       match s.fn with
       | .check => if cond then .returns none else .exits printed
       | .weak_check => if cond then .returns none else .returns printed
       | _ => .returns printed)

/-- The full claim: every call of the program, at every level, is proper. -/
def C124_statement : Prop :=
  ∀ s ∈ sites, ∀ lvl cond str vals, vals.length = numVals s.args → Proper lvl s cond str vals

theorem emit_fill (lvl : Nat) (f : Fn) (ps : List (List Char)) (vals : List (List Char))
    (k : Option (List Char) → Effect) (hp : ∀ t ∈ ps, Plain t)
    (hl : ps.length ≤ vals.length + 1) :
    emit lvl f (template ps) vals k =
      k (if lvl ≤ gate f then some (fill ps vals) else none) := by
  unfold emit shown
  by_cases h : lvl ≤ gate f
  · simp only [h, decide_true, if_true, (C124_format ps vals hp).1 hl]
  · simp [h]

theorem call_lit (lvl : Nat) (f : Fn) (t : String) (cond : Bool) (str : List Char)
    (vals : List (List Char)) (h1 : f ≠ .check) (h2 : f ≠ .weak_check) :
    call lvl f [.lit t] cond str vals = emit lvl f t.toList [] .returns := by
  cases f <;> first | exact absurd rfl h1 | exact absurd rfl h2 | rfl

theorem call_lit_store (lvl : Nat) (f : Fn) (t : String) (n : Nat) (cond : Bool)
    (str : List Char) (vals : List (List Char)) (h1 : f ≠ .check) (h2 : f ≠ .weak_check) :
    call lvl f [.lit t, .store n] cond str vals = emit lvl f t.toList vals .returns := by
  cases f <;> first | exact absurd rfl h1 | exact absurd rfl h2 | rfl

theorem call_lit_str (lvl : Nat) (f : Fn) (t : String) (cond : Bool)
    (str : List Char) (vals : List (List Char)) (h1 : f ≠ .check) (h2 : f ≠ .weak_check) :
    call lvl f [.lit t, .str] cond str vals = emit lvl f str [] .returns := by
  cases f <;> first | exact absurd rfl h1 | exact absurd rfl h2 | rfl

theorem call_check (lvl : Nat) (as : List Arg) (cond : Bool) (str : List Char)
    (vals : List (List Char)) (t : List Char) (vs : List (List Char))
    (h : (as = [.cond] ∧ t = [] ∧ vs = []) ∨ (∃ s, as = [.cond, .lit s] ∧ t = s.toList ∧ vs = []) ∨
      ∃ s n, as = [.cond, .lit s, .store n] ∧ t = s.toList ∧ vs = vals) :
    call lvl .check as cond str vals =
      if cond then .returns none else emit lvl .fatal t vs .exits := by
  rcases h with ⟨rfl, rfl, rfl⟩ | ⟨s, rfl, rfl, rfl⟩ | ⟨s, n, rfl, rfl, rfl⟩ <;> rfl

theorem shape_cases (s : Site) (h : shape s = true) :
    (s.fn = .check ∧ (s.args = [.cond] ∨ (∃ t, s.args = [.cond, .lit t]) ∨
      ∃ t n, s.args = [.cond, .lit t, .store n])) ∨
    (s.fn ≠ .check ∧ s.fn ≠ .weak_check ∧ ((∃ t, s.args = [.lit t]) ∨
      ∃ t n, s.args = [.lit t, .store n])) := by
  obtain ⟨file, line, fn, args⟩ := s
  unfold shape at h
  split at h <;> simp_all

/-- Below `ERROR` and above `FATAL` every call but two is proper, whatever its values: it prints
its own text with the values in the holes, never throws, and `check` exits. -/
theorem C124_sites_partial (s : Site) (hs : s ∈ sites) (h1 : s ≠ ubx232) (h2 : s ≠ simulate115)
    (lvl : Nat) (hlvl : lvl ≤ WARN ∨ FATAL < lvl) (cond : Bool) (str : List Char)
    (vals : List (List Char)) (hv : vals.length = numVals s.args) :
    Proper lvl s cond str vals := by
  have hr := sites_regular s hs h1 h2
  simp only [regular, Bool.and_eq_true] at hr
  obtain ⟨hsh, hpc⟩ := hr
  cases hps : pieces (ownText s.args) with
  | none => rw [hps] at hpc; simp at hpc
  | some ps =>
    rw [hps] at hpc
    simp only [decide_eq_true_eq] at hpc
    obtain ⟨_, ht, hp⟩ := pieces_sound _ ps hps
    have hl : ps.length ≤ vals.length + 1 := by omega
    have hg : ∀ f, (lvl ≤ gate f) ↔ lvl ≤ severity f := by
      intro f
      simp only [WARN, FATAL] at hlvl
      cases f <;> simp only [gate, severity, WARN, DEBUG, INFO] <;> omega
    have hE := fun f k => emit_fill lvl f ps vals k hp hl
    refine ⟨ps, ht, hp, hpc, ?_⟩
    rcases shape_cases s hsh with ⟨hf, ha⟩ | ⟨hf1, hf2, ha⟩
    · have hc : call lvl .check s.args cond str vals =
          if cond then .returns none else emit lvl .fatal (template ps) vals .exits := by
        rw [ht]
        rcases ha with ha | ⟨t, ha⟩ | ⟨t, n, ha⟩
        · have hv0 : vals = [] := by
            rw [ha] at hv
            exact List.length_eq_zero_iff.1 hv
          exact call_check lvl _ cond str vals _ _ (Or.inl ⟨ha, by rw [ha]; rfl, hv0⟩)
        · have hv0 : vals = [] := by
            rw [ha] at hv
            exact List.length_eq_zero_iff.1 hv
          exact call_check lvl _ cond str vals _ _ (Or.inr (Or.inl ⟨t, ha, by rw [ha]; rfl, hv0⟩))
        · exact call_check lvl _ cond str vals _ _
            (Or.inr (Or.inr ⟨t, n, ha, by rw [ha]; rfl, rfl⟩))
      rw [hf, hc, hE]
      simp only [hg, severity]
      rfl
    · have hc : call lvl s.fn s.args cond str vals =
          emit lvl s.fn (template ps) vals .returns := by
        rw [ht]
        rcases ha with ⟨t, ha⟩ | ⟨t, n, ha⟩
        · have hv0 : vals = [] := by
            rw [ha] at hv
            exact List.length_eq_zero_iff.1 hv
          rw [ha, call_lit _ _ _ _ _ _ hf1 hf2, hv0]
          rfl
        · rw [ha, call_lit_store _ _ _ _ _ _ _ hf1 hf2]
          rfl
      rw [hc, hE]
      simp only [hg]

/-- The message of sat_manager.cxx 42 at the default level. -/
example : call INFO .fatal [.lit "{} satellite buffer is full, removing satellite {}", .store 2]
    true [] ["GPS".toList, "3".toList] =
    .returns (some "GPS satellite buffer is full, removing satellite 3".toList) := by
  decide +kernel

/-- The call of simulate.cxx 115 takes its text as a condition: whatever the identifier of the
log, the text of the call does not appear, only the identifier does. -/
theorem C124_log_id_violated (lvl : Nat) (cond : Bool) (str : List Char)
    (vals : List (List Char)) (hs : Plain str) :
    call lvl simulate115.fn simulate115.args cond str vals =
      .returns (if lvl ≤ 1 then some str else none) := by
  show call lvl .info [.lit _, .str] cond str vals = _
  rw [call_lit_str _ _ _ _ _ _ (by decide) (by decide)]
  unfold emit shown
  rw [format_plain _ _ hs]
  by_cases h : lvl ≤ 1 <;> simp [h, gate, INFO]

/-- The call of ubx.cxx 232 throws at every level that shows warnings, whatever the values. -/
theorem C124_overlong_violated (lvl : Nat) (hlvl : lvl ≤ WARN) (cond : Bool) (str : List Char)
    (vals : List (List Char)) :
    call lvl ubx232.fn ubx232.args cond str vals = .throws := by
  show call lvl .warn [.lit _, .store 4] cond str vals = _
  rw [call_lit_store _ _ _ _ _ _ _ (by decide) (by decide)]
  unfold emit shown
  have hf : format "UBX message 0x{x}-0x{x} is too long ({} > {})".toList vals = .throws := by
    have e : "UBX message 0x{x}-0x{x} is too long ({} > {})".toList =
        "UBX message 0x".toList ++ '{' :: 'x' :: "}-0x{x} is too long ({} > {})".toList := by
      decide +kernel
    rw [e, format_text _ _ _ (by unfold Plain; decide +kernel)]
    simp [format, isNameStart, Out.pre]
  rw [hf]
  simp [gate, hlvl]

theorem C124_statement_false : ¬ C124_statement := by
  intro h
  obtain ⟨ps, _, _, _, hc⟩ := h ubx232 sites_others.1 INFO true []
    [['1'], ['2'], ['3'], ['4']] rfl
  rw [C124_overlong_violated INFO (by decide)] at hc
  simp [ubx232] at hc

/-- A message of severity `s` is shown at level `l` exactly if `l ≤ s`, except that errors are
not shown at level `ERROR` and fatal messages and failed checks neither at `ERROR` nor at
`FATAL`. -/
theorem C124_levels_partial (lvl : Nat) (f : Fn) :
    shown lvl f = true ↔
      lvl ≤ severity f ∧ ¬ (lvl = 3 ∧ f = .error) ∧
        ¬ ((lvl = 3 ∨ lvl = 4) ∧ (f = .fatal ∨ f = .check ∨ f = .weak_check)) := by
  unfold shown
  rw [decide_eq_true_iff]
  cases f <;> simp [gate, severity, WARN, DEBUG, INFO] <;> omega

/-- At the levels `ERROR` and `FATAL` a failed check ends the program without a word. -/
theorem C124_silent_exit_violated (lvl : Nat) (h : lvl = ERROR ∨ lvl = FATAL) (t : String)
    (str : List Char) (vals : List (List Char)) :
    call lvl .check [.cond, .lit t] false str vals = .exits none ∧ lvl ≤ severity .check := by
  rw [call_check lvl _ false str vals t.toList [] (Or.inr (Or.inl ⟨t, rfl, rfl, rfl⟩))]
  rcases h with rfl | rfl <;> exact ⟨rfl, by decide⟩

/-! ## The receiver -/

open Verif.Ubx

theorem stepM_throws (lvl : Nat) (hlvl : lvl ≤ WARN) (vals : List (List Char)) (s : St)
    (b : UInt8) :
    stepM lvl vals s b =
      if s.st = .GOT_LENGTH1 ∧ s.len ||| (b.toNat <<< 8) > BUFFER_SIZE then
        .threw { s with len := s.len ||| (b.toNat <<< 8), st := .GOT_LENGTH2 } []
      else match step s b with
        | none => .outOfBounds
        | some (s', ev) => .done s' ev := by
  have := C124_overlong_violated lvl hlvl true [] vals
  unfold stepM
  simp only [ubx232] at this
  simp only [this, and_true]
  rfl

/-- If nothing is thrown the receiver does what the model of C20 to C22 says; that is the case
for every stream when warnings are not shown. -/
theorem C124_receiver_partial (lvl : Nat) (vals : List (List Char)) (s : St)
    (bs : List UInt8) :
    (∀ s' ev, runM lvl vals s bs = .done s' ev → run s bs = some (s', ev)) ∧
      (WARN < lvl → ∀ s' ev, run s bs = some (s', ev) → runM lvl vals s bs = .done s' ev) := by
  induction bs generalizing s with
  | nil => simp [runM, run]
  | cons b bs ih =>
    constructor
    · intro s' ev h
      unfold runM at h
      cases hst : stepM lvl vals s b with
      | outOfBounds => rw [hst] at h; simp at h
      | threw s1 e1 => rw [hst] at h; simp at h
      | done s1 e1 =>
        rw [hst] at h
        simp only at h
        have h1 : step s b = some (s1, e1) := by
          unfold stepM at hst
          simp only at hst
          split at hst
          · simp at hst
          · split at hst <;> simp_all
        cases hr : runM lvl vals s1 bs with
        | outOfBounds => rw [hr] at h; simp at h
        | threw s2 e2 => rw [hr] at h; simp at h
        | done s2 e2 =>
          rw [hr] at h
          simp only [Recv.done.injEq] at h
          simp [run, h1, (ih s1).1 _ _ hr, h.1, h.2]
    · intro hl s' ev h
      have hst : stepM lvl vals s b = match step s b with
          | none => .outOfBounds
          | some (s', ev) => .done s' ev := by
        unfold stepM
        have : call lvl .warn overlong true [] vals = .returns none := by
          show call lvl .warn [.lit _, .store 4] true [] vals = _
          rw [call_lit_store _ _ _ _ _ _ _ (by decide) (by decide)]
          unfold emit shown
          have hn : ¬ lvl ≤ WARN := Nat.not_le.2 hl
          simp [gate, hn]
        simp only [this]
        simp
        rfl
      unfold run at h
      cases hs : step s b with
      | none => rw [hs] at h; simp at h
      | some r =>
        obtain ⟨s1, e1⟩ := r
        rw [hs] at h hst
        simp only at h hst
        cases hr : run s1 bs with
        | none => rw [hr] at h; simp at h
        | some r2 =>
          obtain ⟨s2, e2⟩ := r2
          rw [hr] at h
          simp only [Option.some.injEq, Prod.mk.injEq] at h
          simp [runM, hst, (ih s1).2 hl _ _ hr, h.1, h.2]

/-- The six bytes that announce a payload of `l` bytes. -/
def header (cls typ : UInt8) (l : Nat) : List UInt8 :=
  [START_BYTE_1, START_BYTE_2, cls, typ, UInt8.ofNat (l % 256), UInt8.ofNat (l / 256)]

/-- What the exception leaves behind: the length is stored, the parser waits for the payload. -/
def after (s : St) (cls typ : UInt8) (l : Nat) : St :=
  { s with st := .GOT_LENGTH2, prev := UInt8.ofNat (l % 256), head := 0, cls := cls, typ := typ,
           len := l, ckA := 0, ckB := 0 }

theorem or_shift (l : Nat) (h : l < 65536) :
    (UInt8.ofNat (l % 256)).toNat ||| ((UInt8.ofNat (l / 256)).toNat <<< 8) = l := by
  have e1 : (UInt8.ofNat (l % 256)).toNat = l % 256 := by simp
  have e2 : (UInt8.ofNat (l / 256)).toNat = l / 256 := by
    simp
    omega
  rw [e1, e2, Nat.or_comm, ← Nat.shiftLeft_add_eq_or_of_lt (by omega), Nat.shiftLeft_eq]
  omega

theorem runM_cons_done (lvl : Nat) (vals : List (List Char)) (s s' : St) (b : UInt8)
    (bs : List UInt8) (h : stepM lvl vals s b = .done s' []) :
    runM lvl vals s (b :: bs) = runM lvl vals s' bs := by
  rw [runM, h]
  simp only
  cases runM lvl vals s' bs <;> simp

/-- Whenever the parser waits for a frame and warnings are shown, a header that announces more
than `BUFFER_SIZE` bytes makes the callback throw: the parser does not go back to waiting for a
frame, and what else was received with the header is lost. -/
theorem C22_exception_violated (lvl : Nat) (hlvl : lvl ≤ WARN) (vals : List (List Char)) (s : St)
    (hs : s.st = .START) (cls typ : UInt8) (l : Nat) (h1 : BUFFER_SIZE < l) (h2 : l < 65536)
    (rest : List UInt8) :
    runM lvl vals s (header cls typ l ++ rest) = .threw (after s cls typ l) [] := by
  unfold header
  simp only [List.cons_append, List.nil_append]
  have hb : START_BYTE_1 ≠ START_BYTE_2 := by decide
  rw [runM_cons_done lvl vals s { s with prev := START_BYTE_1 }
    (h := by rw [stepM_throws lvl hlvl]; simp [hs, step, dispatchByte, hb])]
  rw [runM_cons_done (s' := { s with
      head := 0, st := .GOT_START_FRAME, cls := 0, typ := 0, len := 0, ckA := 0, ckB := 0,
      prev := START_BYTE_2 })
    (h := by rw [stepM_throws lvl hlvl]; simp [hs, step, dispatchByte])]
  rw [runM_cons_done (s' := { s with
      head := 0, st := .GOT_CLASS, cls := cls, typ := 0, len := 0, ckA := 0, ckB := 0,
      prev := cls })
    (h := by rw [stepM_throws lvl hlvl]; simp [step, dispatchByte])]
  rw [runM_cons_done (s' := { s with
      head := 0, st := .GOT_MSG_ID, cls := cls, typ := typ, len := 0, ckA := 0, ckB := 0,
      prev := typ })
    (h := by rw [stepM_throws lvl hlvl]; simp [step, dispatchByte])]
  rw [runM_cons_done (s' := { s with
      head := 0, st := .GOT_LENGTH1, cls := cls, typ := typ,
      len := (UInt8.ofNat (l % 256)).toNat, ckA := 0, ckB := 0, prev := UInt8.ofNat (l % 256) })
    (h := by rw [stepM_throws lvl hlvl]; simp [step, dispatchByte])]
  rw [runM, stepM_throws lvl hlvl]
  simp only [or_shift l h2]
  rw [if_pos ⟨trivial, h1⟩]
  rfl

/-- A header that announces 4096 bytes. -/
example : header 0x02 0x15 4096 = [0xB5, 0x62, 0x02, 0x15, 0x00, 0x10] := by decide +kernel

theorem runM_payload (lvl : Nat) (vals : List (List Char)) (bs : List UInt8) (s : St)
    (hs : s.st = .GOT_LENGTH2) (h1 : BUFFER_SIZE < s.len) (h2 : s.head ≤ BUFFER_SIZE)
    (hb : BUFFER_SIZE < s.head + bs.length) :
    runM lvl vals s bs = .outOfBounds := by
  induction bs generalizing s with
  | nil => simp at hb; omega
  | cons b bs ih =>
    have hd : stepM lvl vals s b = match step s b with
        | none => .outOfBounds
        | some (s', ev) => .done s' ev := by
      unfold stepM
      simp only [hs]
      simp
      rfl
    by_cases hh : s.head = BUFFER_SIZE
    · have : step s b = none := by
        simp [step, dispatchByte, hs, hh, h1]
      rw [runM, hd, this]
    · have hst : step s b = some ({ s with
          buf := fun i => if i = s.head then b else s.buf i, st := .GOT_LENGTH2,
          head := s.head + 1, prev := b }, []) := by
        have e1 : s.head < s.len := by omega
        have e2 : s.head < BUFFER_SIZE := by omega
        have e3 : s.head ≠ s.len - 1 := by omega
        simp [step, dispatchByte, hs, e1, e2, e3]
      rw [hst] at hd
      rw [runM_cons_done _ _ _ _ _ _ hd]
      apply ih
      · rfl
      · exact h1
      · show s.head + 1 ≤ _
        omega
      · show _ < s.head + 1 + _
        simp at hb
        omega

/-- If the program survives the exception and goes on feeding the parser, the next
`BUFFER_SIZE + 1` bytes write outside the receive buffer, whatever they are. -/
theorem C124_resumed_violated (lvl : Nat) (vals : List (List Char)) (s : St)
    (cls typ : UInt8) (l : Nat) (h1 : BUFFER_SIZE < l) (bs : List UInt8)
    (hb : BUFFER_SIZE < bs.length) :
    runM lvl vals (after s cls typ l) bs = .outOfBounds :=
  runM_payload lvl vals bs _ rfl h1 (Nat.zero_le _) (by show _ < 0 + _; omega)

end Verif.Props.Messages

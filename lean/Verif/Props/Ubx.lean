import Verif.Lemmas.Ubx
/-!
# C20-C23: UBX framing (parsers/ubx/ubx.cxx)
-/
namespace Verif.Props.Ubx
open Verif.Ubx Verif.UbxSpec

/-- A parser state that some byte stream leads to, with what was received and dispatched. -/
def Reach (bs : List UInt8) (es : List Event) (s : St) : Prop :=
  ∃ b0, run (init b0) bs = some (s, es)

/-- Waiting for a sync pair. -/
def Waiting (s : St) : Prop := s.st = .START

/-! ### C20 -/

/-- **C20.** A frame with a payload of 1..2048 bytes, received while waiting for sync, causes
exactly one dispatch, with its class, id and payload, and the parser waits for sync again. -/
theorem C20_frame_round_trip (s : St) (hs : Waiting s) (c t : UInt8) (pl : List UInt8)
    (h1 : 1 ≤ pl.length) (h2 : pl.length ≤ 2048) :
    ∃ s', run s (frame c t pl) = some (s', [⟨c, t, pl⟩]) ∧ Waiting s' := by
  obtain ⟨s', r, h, _⟩ := run_frame s hs c t pl h1 h2
  exact ⟨s', r, h⟩

/-- Filler followed by a frame. -/
structure Item where
  filler : List UInt8
  cls : UInt8
  typ : UInt8
  payload : List UInt8

def Item.bytes (i : Item) : List UInt8 := i.filler ++ frame i.cls i.typ i.payload
def Item.event (i : Item) : Event := ⟨i.cls, i.typ, i.payload⟩

/-- Every payload has 1..2048 bytes and no filler, seen after the byte that precedes it,
contains a sync pair; `p` is the byte before the first item. -/
def Clean : UInt8 → List Item → Prop
  | _, [] => True
  | p, i :: l => NoSync p i.filler ∧ 1 ≤ i.payload.length ∧ i.payload.length ≤ 2048 ∧
      Clean (sumB (body i.cls i.typ i.payload)) l

/-- **C20.** Any concatenation of frames separated by filler without a sync pair dispatches
exactly those frames, in order, however the stream is cut into reads. -/
theorem C20_stream (items : List Item) (s : St) (hs : Waiting s) (hc : Clean s.prev items) :
    ∃ s', run s (items.flatMap Item.bytes) = some (s', items.map Item.event) ∧ Waiting s' := by
  induction items generalizing s with
  | nil => exact ⟨s, rfl, hs⟩
  | cons i l ih =>
    obtain ⟨h1, h2, h3, h4⟩ := hc
    have r1 := run_filler s i.filler hs h1
    obtain ⟨s2, r2, w2, p2⟩ := run_frame _ (show St.st { s with prev := (s.prev :: i.filler).getLast (by simp) }
      = .START from hs) i.cls i.typ i.payload h2 h3
    obtain ⟨s3, r3, w3⟩ := ih s2 w2 (by rw [p2]; exact h4)
    refine ⟨s3, ?_, w3⟩
    have := run_append _ _ _ _ _ _ _ (run_append _ _ _ _ _ _ _ r1 r2) r3
    simpa [Item.bytes, Item.event] using this

/-- Two frames with filler, the second containing a sync pair inside its payload. -/
example : Clean (init (fun _ => 0)).prev
    [⟨[0x24, 0xB5, 0x0A], 1, 7, [0xB5, 0x62, 3]⟩, ⟨[0x47], 5, 1, [6, 1]⟩] := by
  simp only [Clean, NoSync]; decide +kernel

/-- The restriction on the filler is needed: a checksum byte `B5` followed by filler starting
with `62` is itself a sync pair. -/
example : ∃ c t pl, sumB (body c t pl) = 0xB5 ∧ pl.length = 1 := ⟨0, 0, [0xB2], by decide +kernel, rfl⟩

/-! ### C21 -/

/-- **C21.** For every byte stream the parser never writes outside the receive buffer, and
every dispatch happens at a byte that completes a well-formed frame (sync pair, class, id,
length, payload and correct Fletcher checksum) with exactly the dispatched contents. -/
theorem C21_safe_and_authentic (b0 : Nat → UInt8) (bs : List UInt8) (b : UInt8) :
    ∃ s es s' es', run (init b0) bs = some (s, es) ∧ run (init b0) (bs ++ [b]) = some (s', es ++ es') ∧
      (es' = [] ∨ ∃ e, es' = [e] ∧ frame e.cls e.typ e.payload <:+ bs ++ [b] ∧
        1 ≤ e.payload.length ∧ e.payload.length ≤ 2048) := by
  obtain ⟨s, es, h1, i1⟩ := run_inv bs [] (init b0) (inv_init b0)
  obtain ⟨s', es', h2, _, h3⟩ := step_inv _ s b i1
  exact ⟨s, es, s', es', h1, run_append _ _ _ _ _ _ _ h1 (by simp [run, h2]), by simpa using h3⟩

/-- **C21.** Hence everything dispatched occurs in the input as a frame. -/
theorem C21_dispatched_frames_occur (b0 : Nat → UInt8) (bs : List UInt8) (s : St) (es : List Event)
    (h : run (init b0) bs = some (s, es)) :
    ∀ e ∈ es, frame e.cls e.typ e.payload <:+: bs := by
  obtain ⟨n, hn⟩ : ∃ n, bs.length = n := ⟨_, rfl⟩
  induction n generalizing bs s es with
  | zero => rw [List.length_eq_zero_iff] at hn; subst hn; simp [run] at h; rw [h.2]; intro e he; cases he
  | succ n ih' =>
    rcases List.eq_nil_or_concat bs with rfl | ⟨bs, b, rfl⟩
    · simp at hn
    rw [List.concat_eq_append] at h hn ⊢
    have ih : ∀ s es, run (init b0) bs = some (s, es) → ∀ e ∈ es, frame e.cls e.typ e.payload <:+: bs :=
      fun s es h => ih' bs s es h (by simpa using hn)
    obtain ⟨s1, es1, s2, es2, h1, h2, h3⟩ := C21_safe_and_authentic b0 bs b
    rw [h] at h2
    simp only [Option.some.injEq, Prod.mk.injEq] at h2
    intro e he
    rw [h2.2, List.mem_append] at he
    rcases he with he | he
    · exact (ih s1 es1 h1 e he).trans (List.prefix_append _ _).isInfix
    · rcases h3 with h3 | ⟨e', h3, h4, _⟩
      · rw [h3] at he; cases he
      · rw [h3, List.mem_singleton] at he; subst he; exact h4.isInfix

/-- A stream with one good and one corrupted frame dispatches one message. -/
example : ((run (init fun _ => 0) (frame 1 7 [9, 8] ++ [0xB5, 0x62, 1, 7, 1, 0, 5, 0, 0])).map
    fun p => (p.1.st, p.2)) = some (.START, [⟨1, 7, [9, 8]⟩]) := by
  decide +kernel

/-! ### C22 -/

/-- The full property: from every reachable state, every sufficiently long input has a prefix
after which the parser waits for sync. -/
def C22_statement : Prop :=
  ∃ n, ∀ bs es s, Reach bs es s → ∀ filler : List UInt8, n ≤ filler.length →
    ∃ k s' es', run s (filler.take k) = some (s', es') ∧ Waiting s'

/-- After a header that announces an empty payload the parser never again waits for sync and
never dispatches anything, whatever follows. -/
theorem C22_zero_length_violated (c t : UInt8) (s : St) (hs : Waiting s) (rest : List UInt8) :
    ∃ s', run s (frame c t [] ++ rest) = some (s', []) ∧ ¬ Waiting s' := by
  obtain ⟨s1, r1, a1, _, _, _, a5⟩ := run_header s hs c t 0 (by omega)
  obtain ⟨s2, r2, k2⟩ := stuck_run ([sumA (body c t []), sumB (body c t [])] ++ rest) s1 ⟨a1, a5⟩
  refine ⟨s2, ?_, by rw [Waiting, k2.1]; simp⟩
  have := run_append _ _ _ _ _ _ _ r1 r2
  simpa [frame, body] using this

theorem C22_statement_false : ¬ C22_statement := by
  rintro ⟨n, h⟩
  obtain ⟨s, r, hs⟩ := C22_zero_length_violated 0 0 (init fun _ => 0) rfl []
  obtain ⟨k, s', es', h1, h2⟩ := h _ _ s ⟨_, r⟩ (List.replicate n 0) (by simp)
  obtain ⟨s'', r'', hw⟩ := C22_zero_length_violated 0 0 (init fun _ => 0) rfl ((List.replicate n 0).take k)
  obtain ⟨s1, e1, e2, g1, g2, _⟩ := run_append_inv _ _ _ _ _ r''
  rw [List.append_nil] at r
  rw [r] at g1
  simp only [Option.some.injEq, Prod.mk.injEq] at g1
  rw [g1.1] at h1
  rw [h1] at g2
  simp only [Option.some.injEq, Prod.mk.injEq] at g2
  exact hw (g2.1 ▸ h2)

/-- **C22, partial.** The zero-length frame is the only trap: from every reachable state, within
any 2054 bytes the parser waits for sync again, unless it has just taken a header with zero
payload length.  (Missing: recovery after such a header, which is false.) -/
theorem C22_recovers_partial (bs : List UInt8) (es : List Event) (s : St) (hr : Reach bs es s)
    (filler : List UInt8) (hn : 2054 ≤ filler.length) :
    ∃ k, k ≤ 2054 ∧ ∃ s' es', run s (filler.take k) = some (s', es') ∧
      (Waiting s' ∨ (s'.st = .GOT_LENGTH2 ∧ s'.len = 0)) := by
  obtain ⟨b0, hr⟩ := hr
  obtain ⟨s1, es1, h1, i1⟩ := run_inv bs [] (init b0) (inv_init b0)
  rw [hr] at h1
  simp only [Option.some.injEq, Prod.mk.injEq] at h1
  rw [← h1.1] at i1
  exact recover 2054 filler _ s i1 (todo_le _ _ i1) hn

/-- A state that does need more than two thousand bytes to recover. -/
example : ∃ s, Reach [0xB5, 0x62, 1, 2, 0, 8] [] s ∧ s.st = .GOT_LENGTH2 ∧ s.len = 2048 :=
  ⟨_, ⟨fun _ => 0, rfl⟩, rfl, rfl⟩

/-! ### C23 -/

/-- The full property, including empty messages such as the version poll (ubx.cxx 52-57). -/
def C23_statement : Prop :=
  ∀ (c t : UInt8) (buf : Nat → UInt8) (len : Nat), len ≤ 2048 → ∀ s, Waiting s →
    ∃ out s', sendMessage c t buf len = some out ∧
      run s out = some (s', [⟨c, t, (List.range len).map buf⟩]) ∧ Waiting s'

/-- **C23.** `sendMessage` writes exactly the frame of the given class, id and payload, for every
length that fits the buffer (zero included). -/
theorem C23_sends_frame (c t : UInt8) (buf : Nat → UInt8) (len : Nat) (h : len ≤ 2048) :
    sendMessage c t buf len = some (frame c t ((List.range len).map buf)) := by
  unfold sendMessage
  rw [checksum_eq _ _ _ _ (by omega)]
  simp only
  rw [if_pos (by unfold BUFFER_SIZE; omega), lenLo, lenHi _ (by omega)]
  simp [frame, body, START_BYTE_1, START_BYTE_2]

/-- **C23, partial.** The receiver accepts what `sendMessage` wrote, for payloads of at least one
byte.  (Missing: empty payloads, for which it is false.) -/
theorem C23_accepted_partial (c t : UInt8) (buf : Nat → UInt8) (len : Nat) (h : len ≤ 2048)
    (h0 : 0 < len) (s : St) (hs : Waiting s) :
    ∃ out s', sendMessage c t buf len = some out ∧
      run s out = some (s', [⟨c, t, (List.range len).map buf⟩]) ∧ Waiting s' := by
  obtain ⟨s', r, w⟩ := C20_frame_round_trip s hs c t ((List.range len).map buf)
    (by simp; omega) (by simpa using h)
  exact ⟨_, s', C23_sends_frame c t buf len h, r, w⟩

theorem C23_statement_false : ¬ C23_statement := by
  intro h
  obtain ⟨out, s', h1, h2, h3⟩ := h 0x0A 0x04 (fun _ => 0) 0 (by omega) (init fun _ => 0) rfl
  rw [C23_sends_frame _ _ _ _ (by omega)] at h1
  simp only [Option.some.injEq] at h1
  obtain ⟨s2, r, hw⟩ := C22_zero_length_violated 0x0A 0x04 (init fun _ => 0) rfl []
  rw [List.append_nil] at r
  rw [← h1] at h2
  simp only [List.range_zero, List.map_nil] at h2
  rw [r] at h2
  simp at h2

end Verif.Props.Ubx

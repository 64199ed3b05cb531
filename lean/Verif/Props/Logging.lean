import Verif.Lemmas.LogStream
/-!
# C24-C27: log files
-/
namespace Verif.Props.Logging
open Verif.Log Verif.LogSpec

/-! ## C24 -/

/-- Reading the bytes written for `x` into a variable holding `old` makes it `y` and consumes
exactly these bytes, whatever follows. -/
def Recovers {α : Type} [Codec α] (old x y : α) : Prop :=
  ∀ rest, Codec.dec (IStream.ofBytes (Codec.enc x ++ rest)) old = (y, IStream.ofBytes rest)

theorem recovers {α : Type} [Codec α] [Lawful α] (old x : α) : Recovers old x x :=
  fun rest => (Lawful.laws (α := α)).rt x old rest

/-- Integers and floating-point numbers. -/
theorem C24_scalars :
    (∀ old x : UInt8, Recovers old x x) ∧ (∀ old x : UInt16, Recovers old x x) ∧
    (∀ old x : UInt32, Recovers old x x) ∧ (∀ old x : Int32, Recovers old x x) ∧
    (∀ old x : Int64, Recovers old x x) ∧ (∀ old x : F64, Recovers old x x) :=
  ⟨recovers, recovers, recovers, recovers, recovers, recovers⟩

/-- Fixed-size vectors, and matrices (vectors of columns), of every size. -/
theorem C24_vectors (m n : Nat) :
    (∀ old x : Vector F64 n, Recovers old x x) ∧
    (∀ old x : Vector (Vector F64 m) n, Recovers old x x) ∧
    (∀ old x : Vector Int32 n, Recovers old x x) :=
  ⟨recovers, recovers, recovers⟩

/-- Times, IMU samples, observations, rotations, poses and their derivatives. -/
theorem C24_classes :
    (∀ old x : Stamp, Recovers old x x) ∧ (∀ old x : ImuSample, Recovers old x x) ∧
    (∀ old x : GnssObservation, Recovers old x x) ∧ (∀ old x : Quat, Recovers old x x) ∧
    (∀ old x : Pose, Recovers old x x) ∧ (∀ old x : Jet, Recovers old x x) ∧
    (∀ old x : TwoJet, Recovers old x x) :=
  ⟨recovers, recovers, recovers, recovers, recovers, recovers, recovers⟩

/-- Ephemerides: every member of the broadcast message is recovered; the synchronisation variables
of the parser are not logged and keep their value. -/
theorem C24_ephemerides :
    (∀ old x : GpsEph, Recovers old x
      { x with iode1 := old.iode1, iode2 := old.iode2, iode3 := old.iode3,
               collected_subframes := old.collected_subframes }) ∧
    (∀ old x : GalEph, Recovers old x
      { x with collected_subframes := old.collected_subframes, time_f := old.time_f,
               iod := old.iod }) ∧
    (∀ old x : GloEph, Recovers old x
      { x with frame_flags_ := old.frame_flags_, time_mark_ := old.time_mark_,
               tk_h_ := old.tk_h_, tk_m_ := old.tk_m_, tk_s_ := old.tk_s_, tb_ := old.tb_,
               NT_ := old.NT_, N4_ := old.N4_, NA_ := old.NA_ }) :=
  ⟨fun old x rest => gps_over old x ▸ gps_laws.rt x old rest,
   fun old x rest => gal_over old x ▸ gal_laws.rt x old rest,
   fun old x rest => glo_over old x ▸ glo_laws.rt x old rest⟩

/-- Read one value into each of the variables, one after the other. -/
def readSeq {α : Type} [Codec α] : List α → IStream → List α × IStream
  | [], s => ([], s)
  | o :: os, s =>
    let r := Codec.dec s o
    let r' := readSeq os r.2
    (r.1 :: r'.1, r'.2)

/-- A sequence of values is recovered from the concatenation of their bytes. -/
theorem C24_sequence {α : Type} [Codec α] (h : ∀ old x : α, Recovers old x x) (xs olds : List α)
    (hl : olds.length = xs.length) (rest : List UInt8) :
    readSeq olds (IStream.ofBytes (xs.flatMap Codec.enc ++ rest)) =
      (xs, IStream.ofBytes rest) := by
  induction xs generalizing olds with
  | nil =>
    have : olds = [] := List.eq_nil_of_length_eq_zero hl
    subst this; rfl
  | cons x xs ih =>
    rcases olds with _ | ⟨o, os⟩
    · simp at hl
    · rw [readSeq, List.flatMap_cons, List.append_assoc, h o x]
      simp only
      rw [ih os (by simpa using hl)]

/-- Two different values logged in one record come back separately. -/
theorem C24_pack {α β : Type} [Codec α] [Codec β] (ha : ∀ old x : α, Recovers old x x)
    (hb : ∀ old x : β, Recovers old x x) (old x : α × β) : Recovers old x x := by
  intro rest
  show (let r := Codec.dec (IStream.ofBytes ((Codec.enc x.1 ++ Codec.enc x.2) ++ rest)) old.1
    let r' := Codec.dec r.2 old.2
    ((r.1, r'.1), r'.2)) = _
  rw [List.append_assoc, ha old.1 x.1]
  simp only
  rw [hb old.2 x.2]

/-- Containers sized at run time are recovered if the destination already has the right size. -/
theorem C24_dynamic_partial {α : Type} [Raw α] [LawfulRaw α] (old x : List α)
    (h : old.length = x.length) : Recovers old x x := by
  intro rest
  have sh : Codec.dec (IStream.ofBytes (Codec.enc x ++ rest)) old =
      (chunks old.length ((IStream.mk (x.flatMap Raw.toBytes ++ rest) false false).readInto
        (old.flatMap Raw.toBytes)).1,
       ((IStream.mk (x.flatMap Raw.toBytes ++ rest) false false).readInto
        (old.flatMap Raw.toBytes)).2) := rfl
  have hx := flatMap_len x
  have ho := flatMap_len old
  rw [h, ← hx] at ho
  have e : (IStream.mk (x.flatMap Raw.toBytes ++ rest) false false).readInto
      (old.flatMap Raw.toBytes) = (x.flatMap Raw.toBytes, ⟨rest, false, false⟩) := by
    simp only [IStream.readInto, IStream.read, Bool.or_self, Bool.false_eq_true, if_false, ho,
      List.length_append, Nat.le_add_right, if_true, List.take_left, List.drop_left]
    rw [List.drop_eq_nil_of_le (by omega), List.append_nil]
  rw [sh, e]
  simp only [h, chunks_flatMap]
  rfl

/-- The full statement for containers sized at run time. -/
def C24_dynamic_statement : Prop :=
  ∀ old x : List F64, Recovers old x x

/-- Whatever was logged, reading into an empty container yields an empty container and consumes no
byte; so everything read afterwards is out of step. -/
theorem C24_dynamic_violated (x : List F64) (rest : List UInt8) :
    Codec.dec (IStream.ofBytes (Codec.enc x ++ rest)) ([] : List F64) =
      ([], IStream.ofBytes (Codec.enc x ++ rest)) := by
  show (let r := (IStream.ofBytes (Codec.enc x ++ rest)).readInto []
    ((chunks 0 r.1 : List F64), r.2)) = _
  simp [IStream.readInto, IStream.read, IStream.ofBytes, chunks]

theorem C24_statement_false : ¬ C24_dynamic_statement := by
  intro h
  have h1 := h [] [⟨0⟩] []
  rw [C24_dynamic_violated] at h1
  exact absurd (congrArg (fun p => p.1.length) h1) (by simp)

/-- An observation and its 50 bytes. -/
def obs1 : GnssObservation :=
  ⟨⟨1561988124, 550000000⟩, 6, 12, ⟨0x41D7DEC260000000⟩, ⟨0x417312D000000000⟩,
   ⟨0xC08F400000000000⟩, ⟨0x419F5E1000000000⟩⟩

example : (Codec.enc obs1).length = 50 ∧ (Codec.enc obs1).take 18 =
    [28, 12, 26, 93, 0, 0, 0, 0, 128, 85, 200, 32, 0, 0, 0, 0, 6, 12] := by decide +kernel

/-! ## C25 -/

/-- `LogReader::read` on a single stream with the given file contents. -/
def replay {δ : Type} [Codec δ] (fuel : Nat) (key : Int) (init : Stamp) (old : δ)
    (file : List UInt8) : Option (List (Int × Stamp × δ)) :=
  readLoop (fun r : Reader => r.next) (Reader.get old) (fun (_ : Unit) _ => ((), false)) fuel ()
    [(key, Reader.open init file)]

theorem complete_torn_length {δ : Type} [Codec δ] (old : δ) (cut : Nat) (rs : List (Stamp × δ)) :
    (complete cut rs).length + (tornList old (torn cut rs)).length ≤ rs.length := by
  induction rs generalizing cut with
  | nil => simp [complete, torn, tornList]
  | cons r rs ih =>
    rw [complete, torn]
    split
    · have := ih (cut - recLen r); simp only [List.length_cons]; omega
    · simp only [tornList]; split <;> simp

theorem replay_cut {δ : Type} [c : Codec δ] {n : Nat} {u : δ → δ → δ} (hc : Laws c n u) (key : Int)
    (init : Stamp) (old : δ) (rs : List (Stamp × δ)) (ht : ∀ r ∈ rs, InTime r.1) (cut fuel : Nat)
    (hf : rs.length < fuel) :
    replay fuel key init old ((logFile rs).take cut) = some
      ((((complete cut rs).map fun r => (r.1, u old r.2)) ++ tornList old (torn cut rs)).map
        fun r => (key, r)) := by
  have hr := reads_cut hc old rs ht cut init
  obtain ⟨out, h1, h2, -⟩ := readLoop_merge (fun r : Reader => r.next) (Reader.get old)
    (fun (_ : Unit) _ => ((), false)) (fun _ _ => rfl) fuel ()
    [(key, Reader.open init ((logFile rs).take cut))] [(key, _)] (by simp)
    (.cons ⟨rfl, hr⟩ .nil) (by
      have := complete_torn_length old cut rs
      simp only [total, List.map_cons, List.map_nil, List.sum_cons, List.sum_nil,
        List.length_append, List.length_map]
      omega)
  rw [replay, h1, merge_single h2]

/-- The full statement: after a crash that left the first `cut` bytes, exactly the complete records
are delivered. -/
def C25_statement : Prop :=
  ∀ (init : Stamp) (old : ImuSample) (rs : List (Stamp × ImuSample)) (cut fuel : Nat),
    (∀ r ∈ rs, InTime r.1) → rs.length < fuel →
    replay fuel 0 init old ((logFile rs).take cut) =
      some ((complete cut rs).map fun r => (0, r))

/-- What is delivered for every cut: the complete records, in order, and at most one more callback,
with the stamp of the record the cut goes through, exactly when that stamp was completely
written. -/
theorem C25_delivered {δ : Type} [Codec δ] [Lawful δ] (key : Int) (init : Stamp) (old : δ)
    (rs : List (Stamp × δ)) (ht : ∀ r ∈ rs, InTime r.1) (cut fuel : Nat) (hf : rs.length < fuel) :
    ∃ extra, replay fuel key init old ((logFile rs).take cut) =
        some ((complete cut rs).map (fun r => (key, r)) ++ extra) ∧
      match torn cut rs with
      | none => extra = []
      | some (r, k) => if 16 ≤ k then ∃ d, extra = [(key, r.1, d)] else extra = [] := by
  refine ⟨(tornList old (torn cut rs)).map (fun r => (key, r)), ?_, ?_⟩
  · rw [replay_cut Lawful.laws key init old rs ht cut fuel hf]
    simp
  · rcases torn cut rs with _ | ⟨r, k⟩
    · rfl
    · simp only [tornList]
      split
      · exact ⟨_, rfl⟩
      · rfl

/-- If the crash did not happen inside the data of a record (no byte of a record was written, or
not all of its stamp), exactly the complete records are delivered. -/
theorem C25_clean_partial {δ : Type} [Codec δ] [Lawful δ] (key : Int) (init : Stamp) (old : δ)
    (rs : List (Stamp × δ)) (ht : ∀ r ∈ rs, InTime r.1) (cut fuel : Nat) (hf : rs.length < fuel)
    (hcut : ∀ r k, torn cut rs = some (r, k) → k < 16) :
    replay fuel key init old ((logFile rs).take cut) =
      some ((complete cut rs).map fun r => (key, r)) := by
  obtain ⟨extra, h1, h2⟩ := C25_delivered key init old rs ht cut fuel hf
  rcases h : torn cut rs with _ | ⟨r, k⟩
  · rw [h] at h2; simp only at h2; rw [h1, h2, List.append_nil]
  · rw [h] at h2
    simp only [if_neg (Nat.not_le.2 (hcut r k h))] at h2
    rw [h1, h2, List.append_nil]

/-- The complete file gives back every record. -/
theorem C25_whole_file {δ : Type} [Codec δ] [Lawful δ] (key : Int) (init : Stamp) (old : δ)
    (rs : List (Stamp × δ)) (ht : ∀ r ∈ rs, InTime r.1) (fuel : Nat) (hf : rs.length < fuel) :
    replay fuel key init old (logFile rs) = some (rs.map fun r => (key, r)) := by
  have := C25_clean_partial key init old rs ht (logFile rs).length fuel hf
    (fun r k h => by rw [torn_all] at h; simp at h)
  rwa [complete_all, List.take_length] at this

/-- The same for the ephemeris streams. -/
theorem C25_ephemeris_files (key : Int) (init : Stamp) (fuel : Nat) :
    (∀ (old : GpsEph) (rs : List (Stamp × GpsEph)), (∀ r ∈ rs, InTime r.1) → rs.length < fuel →
      ∃ out, replay fuel key init old (logFile rs) = some out ∧
        out = rs.map fun r => (key, r.1,
          { r.2 with iode1 := old.iode1, iode2 := old.iode2, iode3 := old.iode3,
                     collected_subframes := old.collected_subframes })) ∧
    (∀ (old : GalEph) (rs : List (Stamp × GalEph)), (∀ r ∈ rs, InTime r.1) → rs.length < fuel →
      ∃ out, replay fuel key init old (logFile rs) = some out ∧
        out = rs.map fun r => (key, r.1,
          { r.2 with collected_subframes := old.collected_subframes, time_f := old.time_f,
                     iod := old.iod })) ∧
    (∀ (old : GloEph) (rs : List (Stamp × GloEph)), (∀ r ∈ rs, InTime r.1) → rs.length < fuel →
      ∃ out, replay fuel key init old (logFile rs) = some out ∧
        out = rs.map fun r => (key, r.1,
          { r.2 with frame_flags_ := old.frame_flags_, time_mark_ := old.time_mark_,
                     tk_h_ := old.tk_h_, tk_m_ := old.tk_m_, tk_s_ := old.tk_s_, tb_ := old.tb_,
                     NT_ := old.NT_, N4_ := old.N4_, NA_ := old.NA_ })) := by
  refine ⟨?_, ?_, ?_⟩
  · intro old rs ht hf
    have := replay_cut gps_laws key init old rs ht (logFile rs).length fuel hf
    rw [List.take_length, complete_all, torn_all] at this
    exact ⟨_, this, by simp [tornList, gps_over]⟩
  · intro old rs ht hf
    have := replay_cut gal_laws key init old rs ht (logFile rs).length fuel hf
    rw [List.take_length, complete_all, torn_all] at this
    exact ⟨_, this, by simp [tornList, gal_over]⟩
  · intro old rs ht hf
    have := replay_cut glo_laws key init old rs ht (logFile rs).length fuel hf
    rw [List.take_length, complete_all, torn_all] at this
    exact ⟨_, this, by simp [tornList, glo_over]⟩

/-- Every crash inside the data of a record makes the reader deliver a record that was not
completely written. -/
theorem C25_torn_violated {δ : Type} [Codec δ] [Lawful δ] (key : Int) (init : Stamp) (old : δ)
    (rs : List (Stamp × δ)) (ht : ∀ r ∈ rs, InTime r.1) (cut fuel : Nat) (hf : rs.length < fuel)
    (r : Stamp × δ) (k : Nat) (h : torn cut rs = some (r, k)) (hk : 16 ≤ k) :
    ∃ d, replay fuel key init old ((logFile rs).take cut) =
      some ((complete cut rs).map (fun r => (key, r)) ++ [(key, r.1, d)]) := by
  obtain ⟨extra, h1, h2⟩ := C25_delivered key init old rs ht cut fuel hf
  rw [h] at h2
  simp only [if_pos hk] at h2
  obtain ⟨d, hd⟩ := h2
  exact ⟨d, by rw [h1, hd]⟩

/-- Two IMU samples. -/
def imu1 : ImuSample := ⟨⟨100, 5⟩, #v[⟨1⟩, ⟨2⟩, ⟨3⟩], #v[⟨4⟩, ⟨5⟩, ⟨6⟩]⟩
def imu0 : ImuSample := ⟨⟨0, 0⟩, #v[⟨0⟩, ⟨0⟩, ⟨0⟩], #v[⟨0⟩, ⟨0⟩, ⟨0⟩]⟩

/-- A file of two records of 80 bytes cut after 100 bytes: a second record is delivered, with the
first four bytes of its data. -/
theorem C25_statement_false : ¬ C25_statement := by
  intro h
  have h1 := h ⟨0, 0⟩ imu0 [(⟨100, 5⟩, imu1), (⟨100, 6⟩, imu1)] 100 3
    (by intro r hr; simp at hr; rcases hr with rfl | rfl <;> (unfold InTime; decide +kernel))
    (by decide)
  exact absurd h1 (by decide +kernel)

example : replay 3 0 ⟨0, 0⟩ imu0 ((logFile [(⟨100, 5⟩, imu1), (⟨100, 6⟩, imu1)]).take 100) =
    some [(0, ⟨100, 5⟩, imu1), (0, ⟨100, 6⟩, { imu0 with t := ⟨100, 0⟩ })] := by decide +kernel
example : replay 3 0 ⟨0, 0⟩ imu0 ((logFile [(⟨100, 5⟩, imu1), (⟨100, 6⟩, imu1)]).take 90) =
    some [(0, ⟨100, 5⟩, imu1)] := by decide +kernel

/-! ## C26 -/

section
variable {T : Int → Type} [∀ k, Codec (T k)] [∀ k, Lawful (T k)]

/-- `LogReader::read` on the files of the streams `keys`, stream `k` holding records of type `T k`;
`maint` are the maintenance callbacks. -/
def replayAll {M : Type} (maint : M → Stamp → M × Bool) (m : M) (fuel : Nat) (init : Stamp)
    (old : (k : Int) → T k) (keys : List Int) (file : Int → List UInt8) :
    Option (List (Int × Stamp × (k : Int) × T k)) :=
  readLoop (fun s : Int × Reader => s.2.next)
    (fun s => let g := Reader.get (old s.1) s.2; (⟨s.1, g.1⟩, (s.1, g.2))) maint fuel m
    (keys.map fun k => (k, (k, Reader.open init (file k))))

/-- The records of stream `k` among the calls of `Logger::log`. -/
def recordsOf (k : Int) (calls : List ((k : Int) × (Stamp × T k))) : List (Stamp × T k) :=
  calls.filterMap fun o => if h : o.1 = k then some (h ▸ o.2) else none

/-- Sources of the replay. -/
def sources (keys : List Int) (recs : (k : Int) → List (Stamp × T k)) :
    List (Int × List (Stamp × (k : Int) × T k)) :=
  keys.map fun k => (k, (recs k).map fun r => (r.1, (⟨k, r.2⟩ : (k : Int) × T k)))

omit [∀ k, Lawful (T k)] in
theorem reads_tagged (old : (k : Int) → T k) (k : Int) (r : Reader) (rs : List (Stamp × T k))
    (h : Reads (fun r : Reader => r.next) (Reader.get (old k)) r rs) :
    Reads (fun s : Int × Reader => s.2.next)
      (fun s => let g := Reader.get (old s.1) s.2
        ((⟨s.1, g.1⟩ : (k : Int) × T k), (s.1, g.2))) (k, r)
      (rs.map fun r => (r.1, (⟨k, r.2⟩ : (k : Int) × T k))) := by
  induction rs generalizing r with
  | nil => exact h
  | cons a rs ih =>
    obtain ⟨h1, h2, h3, h4⟩ := h
    refine ⟨h1, h2, ?_, ih _ h4⟩
    simp only [h3]

/-- Every record of every stream is delivered exactly once, in the order of its stream, and the
deliveries are ordered in time if every stream is. -/
theorem C26_merge_partial {M : Type} (maint : M → Stamp → M × Bool)
    (hm : ∀ m t, (maint m t).2 = false) (m : M) (init : Stamp) (old : (k : Int) → T k)
    (keys : List Int) (nd : keys.Nodup) (recs : (k : Int) → List (Stamp × T k))
    (ht : ∀ k ∈ keys, ∀ r ∈ recs k, InTime r.1) (fuel : Nat)
    (hf : (keys.map fun k => (recs k).length).sum < fuel) :
    ∃ out, replayAll maint m fuel init old keys (fun k => logFile (recs k)) = some out ∧
      IsMerge (sources keys recs) out ∧
      ((∀ k ∈ keys, (recs k).Pairwise fun a b => NotLater a.1 b.1) →
        out.Pairwise fun a b => NotLater a.2.1 b.2.1) := by
  have hr : ReadsAll (fun s : Int × Reader => s.2.next)
      (fun s => let g := Reader.get (old s.1) s.2
        ((⟨s.1, g.1⟩ : (k : Int) × T k), (s.1, g.2)))
      (keys.map fun k => (k, (k, Reader.open init (logFile (recs k))))) (sources keys recs) := by
    clear nd hf
    induction keys with
    | nil => exact .nil
    | cons k ks ih =>
      refine .cons ⟨rfl, ?_⟩ (ih fun k' hk' => ht k' (by simp [hk']))
      have := reads_file Lawful.laws (old k) (recs k) (ht k (by simp)) init
      rw [List.map_id'] at this
      exact reads_tagged old k _ _ this
  obtain ⟨out, h1, h2, h3⟩ := readLoop_merge _ _ maint hm fuel m _ (sources keys recs)
    (by simpa [sources, Function.comp_def] using nd) hr
    (by simpa [total, sources, Function.comp_def] using hf)
  refine ⟨out, h1, h2, fun hs => h3 ?_⟩
  intro s hsm
  simp only [sources, List.mem_map] at hsm
  obtain ⟨k, hk, rfl⟩ := hsm
  exact List.pairwise_map.2 (hs k hk)

omit [∀ k, Lawful (T k)] in
/-- With maintenance callbacks that stop the replay, a prefix of the full replay is delivered. -/
theorem C26_early_exit {M M' : Type} (maint : M → Stamp → M × Bool)
    (maint' : M' → Stamp → M' × Bool) (hm : ∀ m t, (maint m t).2 = false) (m : M) (m' : M')
    (fuel : Nat) (init : Stamp) (old : (k : Int) → T k) (keys : List Int)
    (file : Int → List UInt8) (out : List (Int × Stamp × (k : Int) × T k))
    (h : replayAll maint m fuel init old keys file = some out) :
    ∃ out', replayAll maint' m' fuel init old keys file = some out' ∧ out' <+: out :=
  readLoop_prefix _ _ maint maint' hm fuel m m' _ out h

omit [∀ k, Lawful (T k)] in
/-- The files written by a program hold, for every key, the records logged with that key, in
program order; so `C26_merge_partial` gives back everything that was logged. -/
theorem C26_logged (calls : List ((k : Int) × (Stamp × T k))) (k : Int) :
    logCalls calls (fun _ => []) k = logFile (recordsOf k calls) := by
  have gen : ∀ (calls : List ((k : Int) × (Stamp × T k))) (files : Int → List UInt8),
      logCalls calls files k = files k ++ logFile (recordsOf k calls) := by
    intro calls
    induction calls with
    | nil => intro files; simp [logCalls, recordsOf, logFile]
    | cons o os ih =>
      intro files
      rw [logCalls, ih]
      obtain ⟨j, r⟩ := o
      by_cases h : k = j
      · subst h
        simp [recordsOf, logFile]
      · have h' : ¬ j = k := fun e => h e.symm
        simp [recordsOf, h, h']
  simpa using gen calls (fun _ => [])
end

/-- The full statement, for one stream of IMU samples and every stamp. -/
def C26_statement : Prop :=
  ∀ (rs : List (Stamp × ImuSample)), ∃ fuel,
    replay fuel 0 ⟨0, 0⟩ imu0 (logFile rs) = some (rs.map fun r => (0, r))

/-- A record stamped with the last representable second is taken for the end of the stream: it and
everything after it is lost. -/
theorem C26_statement_false : ¬ C26_statement := by
  intro h
  obtain ⟨fuel, h⟩ := h [(MAX_TIME, imu1)]
  rcases fuel with _ | fuel
  · exact absurd h (by simp [replay, readLoop])
  · have hr : (Reader.open ⟨0, 0⟩ (logFile [(MAX_TIME, imu1)])).next = MAX_TIME := by decide +kernel
    have hl : lowest (fun s : Int × Reader => s.2.next)
        [((0 : Int), Reader.open ⟨0, 0⟩ (logFile [(MAX_TIME, imu1)]))] 0 (MAX_TIME, none) =
        (MAX_TIME, none) := by
      simp only [lowest, hr]
      rfl
    rw [replay, readLoop, hl] at h
    simp at h

/-- Two streams, merged by time. -/
example : readLoop (S := List (Stamp × Nat)) (P := Nat)
      (fun s => (s.head?.map Prod.fst).getD MAX_TIME)
      (fun s => ((s.head?.map Prod.snd).getD 0, s.tail)) (fun (_ : Unit) _ => ((), false)) 6 ()
      [(3, [(⟨1, 0⟩, 10), (⟨5, 0⟩, 11)]), (0, [(⟨1, 0⟩, 20), (⟨2, 7⟩, 21), (⟨9, 0⟩, 22)])] =
    some [(3, ⟨1, 0⟩, 10), (0, ⟨1, 0⟩, 20), (0, ⟨2, 7⟩, 21), (3, ⟨5, 0⟩, 11), (0, ⟨9, 0⟩, 22)] := by
  decide +kernel

/-! ## C27 -/

/-- The full statement. -/
def C27_statement : Prop := ∀ a b : Int, logKeyName a = logKeyName b → a = b

/-- Keys 120 and 1200 share the file `LOG_KEY_1200.log`. -/
theorem C27_collision_violated :
    logKeyName 120 = "LOG_KEY_1200".toList ∧ logKeyName 1200 = "LOG_KEY_1200".toList := by
  rw [(logKeyName_iff 120 1200).2 (Or.inr (Or.inl ⟨rfl, by decide⟩)), and_self]
  rw [logKeyName_other (by decide), centre_long (by decide)]
  simp only [showInt]
  rw [if_neg (by decide)]
  simp [digits]

theorem C27_statement_false : ¬ C27_statement := by
  intro h
  exact absurd (h 120 1200 ((logKeyName_iff 120 1200).2 (Or.inr (Or.inl ⟨rfl, by decide⟩))))
    (by decide)

/-- The exact extent of the problem: two different keys share a file name if and only if one is ten
times the other and the smaller one (in absolute value) prints with three characters. -/
theorem C27_exact_partial (a b : Int) : logKeyName a = logKeyName b ↔
    a = b ∨ (b = 10 * a ∧ ((100 ≤ a ∧ a ≤ 999) ∨ (-99 ≤ a ∧ a ≤ -10))) ∨
    (a = 10 * b ∧ ((100 ≤ b ∧ b ≤ 999) ∨ (-99 ≤ b ∧ b ≤ -10))) :=
  logKeyName_iff a b

/-- In particular all keys from 0 to 999, which include all those the project uses, are told
apart. -/
theorem C27_small_keys_partial (a b : Int) (ha : 0 ≤ a ∧ a ≤ 999) (hb : 0 ≤ b ∧ b ≤ 999)
    (h : logKeyName a = logKeyName b) : a = b := by
  have := (C27_exact_partial a b).1 h
  omega

example : logKeyName 3 = "GAL_EPH".toList := by decide +kernel

end Verif.Props.Logging

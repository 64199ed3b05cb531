/-!
# Model of parsers/ubx/ubx.cxx: framing state machine, checksum, encoder

`uint8_t` is `UInt8`, the 16-bit counters are `Nat` (they never exceed 65535: `length_` is built
from two bytes, `buffer_head_` stays at most `length_`).  A write outside `in_message_.buffer`
gives `none`.  Dispatch to the listeners is an output event: class, type and the first
`length_` bytes of `in_message_`.  The statistics counters, the `start_message_`/`end_message_`
flags, ACK/NACK flags and the version callback are not modelled: they do not influence framing.
-/
namespace Verif.Ubx

/-- parsers/ubx/ubx_defs.h 31. -/
def BUFFER_SIZE : Nat := 2048
/-- ubx_defs.h 45-46. -/
def START_BYTE_1 : UInt8 := 0xB5
def START_BYTE_2 : UInt8 := 0x62

/-- ubx_defs.h 188-199, `parse_state_t`. -/
inductive PState
  | START | GOT_START_FRAME | GOT_CLASS | GOT_MSG_ID | GOT_LENGTH1 | GOT_LENGTH2
  | GOT_PAYLOAD | GOT_CK_A | GOT_CK_B
deriving DecidableEq, Repr

/-- ubx.h 112-124, 142: the data members used by the state machine. -/
structure St where
  st : PState
  prev : UInt8
  head : Nat
  cls : UInt8
  typ : UInt8
  len : Nat
  ckA : UInt8
  ckB : UInt8
  buf : Nat → UInt8

/-- ubx.h 112-124: initial values (the buffer is uninitialised; any contents). -/
def init (b : Nat → UInt8) : St := ⟨.START, 0, 0, 0, 0, 0, 0, 0, b⟩

/-- What a listener receives (ubx.cxx 335-339), with the payload bytes made explicit. -/
structure Event where
  cls : UInt8
  typ : UInt8
  payload : List UInt8
deriving DecidableEq, Repr

/-- ubx.cxx 356-378: `ck_a += x; ck_b += ck_a`. -/
def ckAdd (c : UInt8 × UInt8) (x : UInt8) : UInt8 × UInt8 := (c.1 + x, c.2 + (c.1 + x))

/-- ubx.cxx 373-377: the payload loop, `n` bytes starting at index `i`. -/
def ckLoop (buf : Nat → UInt8) : Nat → Nat → UInt8 × UInt8 → UInt8 × UInt8
  | 0, _, c => c
  | n + 1, i, c => ckLoop buf n (i + 1) (ckAdd c (buf i))

/-- ubx.cxx 349-378, `calculateChecksum`. -/
def calculateChecksum (cls typ : UInt8) (len : Nat) (buf : Nat → UInt8) : UInt8 × UInt8 :=
  let c := ckAdd (0, 0) cls
  let c := ckAdd c typ
  let c := ckAdd c (UInt8.ofNat (len &&& 0xFF))
  let c := ckAdd c (UInt8.ofNat ((len >>> 8) &&& 0xFF))
  ckLoop buf len 0 c

/-- The first `len` bytes of the receive buffer. -/
def payloadOf (s : St) : List UInt8 := (List.range s.len).map s.buf

/-- ubx.cxx 298-342, `decodeMessage`: `none` = checksum error. -/
def decodeMessage (s : St) : Option Event :=
  let (a, b) := calculateChecksum s.cls s.typ s.len s.buf
  if a ≠ s.ckA ∨ b ≠ s.ckB then none else some ⟨s.cls, s.typ, payloadOf s⟩

/-- ubx.cxx 199-262: the `switch` on the parse state.  `default` (line 256) is reached only from
`GOT_CK_B`. -/
def dispatchByte (s : St) (byte : UInt8) : Option St :=
  match s.st with
  | .START =>
    if byte = START_BYTE_2 ∧ s.prev = START_BYTE_1 then
      some { s with head := 0, st := .GOT_START_FRAME, cls := 0, typ := 0, len := 0, ckA := 0, ckB := 0 }
    else some s
  | .GOT_START_FRAME => some { s with cls := byte, st := .GOT_CLASS }
  | .GOT_CLASS => some { s with typ := byte, st := .GOT_MSG_ID }
  | .GOT_MSG_ID => some { s with len := byte.toNat, st := .GOT_LENGTH1 }
  | .GOT_LENGTH1 =>
    let len := s.len ||| (byte.toNat <<< 8)
    if len > BUFFER_SIZE then some { s with len := len, prev := byte, st := .START }
    else some { s with len := len, st := .GOT_LENGTH2 }
  | .GOT_LENGTH2 =>
    if s.head < s.len then
      if s.head < BUFFER_SIZE then
        some { s with
          buf := fun i => if i = s.head then byte else s.buf i
          st := if s.head = s.len - 1 then .GOT_PAYLOAD else .GOT_LENGTH2
          head := s.head + 1 }
      else none
    else some s
  | .GOT_PAYLOAD => some { s with ckA := byte, st := .GOT_CK_A }
  | .GOT_CK_A => some { s with ckB := byte, st := .GOT_CK_B }
  | .GOT_CK_B => some { s with st := .START }

/-- ubx.cxx 195-288: one iteration of the loop of `receive_callback`. -/
def step (s : St) (byte : UInt8) : Option (St × List Event) :=
  match dispatchByte s byte with
  | none => none
  | some s' =>
    if s'.st = .GOT_CK_B then
      match decodeMessage s' with
      | some e => some ({ s' with st := .START, prev := byte }, [e])
      | none => some ({ s' with st := .START, prev := byte }, [])
    else some ({ s' with prev := byte }, [])

/-- ubx.cxx 193-289: `receive_callback` on a byte sequence; successive calls just continue the
sequence, so the split into calls does not matter. -/
def run (s : St) : List UInt8 → Option (St × List Event)
  | [] => some (s, [])
  | b :: bs =>
    match step s b with
    | none => none
    | some (s', e) =>
      match run s' bs with
      | none => none
      | some (s'', e') => some (s'', e ++ e')

/-- ubx.cxx 99-116, `sendMessage(msg_class, msg_id, message, len)`: the bytes written.  Reading
more than `BUFFER_SIZE` bytes of `message.buffer` is out of bounds. -/
def sendMessage (cls typ : UInt8) (buf : Nat → UInt8) (len : Nat) : Option (List UInt8) :=
  let (a, b) := calculateChecksum cls typ len buf
  if len ≤ BUFFER_SIZE then
    some ([START_BYTE_1, START_BYTE_2, cls, typ, UInt8.ofNat (len &&& 0xFF),
      UInt8.ofNat ((len >>> 8) &&& 0xFF)] ++ (List.range len).map buf ++ [a, b])
  else none

end Verif.Ubx

import Verif.Port
/-!
# The port layer — model of `src/c/port.cc` and of the port output of `src/c/string.cc`: all kinds of ports together

`Port.lean` models one string port; here is the whole layer: a table of ports of the five kinds, the C streams they use, the files,
and the three current ports.

Simplifications.
* A C output stream buffers what is written; when the C library writes its buffer to the file is unspecified, so it is a
  parameter (`World.spill`).  A stream opened for reading delivers the contents the file had when it was opened.
* `fopen` fails for reading when there is no such file, for writing when the parameter `World.writable` says so.  No other I/O errors.
* The procedures of soft ports are an arbitrary parameter (`World.call`) with a state of their own; they do not operate on ports.
* Ports and streams are never reclaimed here (the collector closes the file of an unreachable port, src/c/gc.cc:720-740).
* Printing of a datum is `Rd.print` (see `Port.display`).
-/
namespace Pscm.Ports
open Rd (Bytes)
open Port (In Out)

/-- `PortType`, src/c/pscm_types.h:143. -/
inductive Kind | fileIn | fileOut | strIn | strOut | soft
  deriving DecidableEq, Repr

/-- `SCM_Port`, src/c/pscm_types.h:145-165.  `inp` holds `string_data`, `string_pos`, `string_len`; `out` holds `output_buffer`,
`output_len`, `output_capacity` (their own `closed` fields are not used). -/
structure PortRec where
  kind : Kind
  isInput : Bool
  closed : Bool
  file : Option Nat
  inp : In
  out : Out
  procs : List Obj
  modes : Bytes
  deriving DecidableEq, Repr

/-- A C stream (`FILE`): for reading, the contents and the position; for writing, the file, the number of bytes already in the file and
the bytes still in the buffer. -/
structure Stream where
  path : Bytes
  inp : In
  done : Nat
  pend : Bytes
  isOpen : Bool
  deriving DecidableEq, Repr

/-- The state of the layer; `σ` is the state of the soft-port procedures. -/
structure PS (σ : Type) where
  ports : List PortRec
  streams : List Stream
  files : Bytes → Option Bytes
  curIn : Nat
  curOut : Nat
  curErr : Nat
  user : σ

/-- What the layer depends on, see the head of the file. -/
structure World (σ : Type) where
  spill : Bytes → Nat
  writable : Bytes → Bool
  call : Obj → List Obj → σ → Res (Option Obj) × σ
  flo : Rd.FloIO

variable {σ : Type} (W : World σ)

/-- An argument of a port operation: absent (or `()`), a port, or another object. -/
inductive Arg | absent | port (i : Nat) | other
  deriving DecidableEq, Repr

/-- What an operation returns. -/
inductive Ans
  | unspecified
  | eof
  | char (c : UInt8)
  | str (s : Bytes)
  | bool (b : Bool)
  | port (i : Nat)
  | datum (r : Rd.R)

/-- The record of a port; a port object always has one. -/
def getPort (s : PS σ) (i : Nat) : Res PortRec := match s.ports[i]? with | some p => .ok p | none => .ub

/-- Replace the record of a port. -/
def setPort (s : PS σ) (i : Nat) (p : PortRec) : PS σ := { s with ports := s.ports.set i p }

/-- A new port (`gc_alloc` and `wrap_port`, src/c/port.cc:12-18). -/
def newPort (s : PS σ) (p : PortRec) : Res Ans × PS σ := (.ok (.port s.ports.length), { s with ports := s.ports ++ [p] })

/-! ## C streams -/

/-- Bytes written at an offset of a file. -/
def overwrite (old : Bytes) (pos : Nat) (bs : Bytes) : Bytes :=
  old.take pos ++ List.replicate (pos - old.length) 0 ++ bs ++ old.drop (pos + bs.length)

/-- An open stream; using a closed one is undefined. -/
def getStream (s : PS σ) (k : Nat) : Res Stream :=
  match s.streams[k]? with
  | some f => if f.isOpen then .ok f else .ub
  | none => .ub

/-- The C library moves the first `n` bytes of the buffer to the file. -/
def drain (s : PS σ) (k : Nat) (f : Stream) (n : Nat) : PS σ :=
  { s with
    streams := s.streams.set k { f with done := f.done + (f.pend.take n).length, pend := f.pend.drop n }
    files := fun name =>
      if name = f.path ∧ f.pend.take n ≠ [] then some (overwrite ((s.files name).getD []) f.done (f.pend.take n)) else s.files name }

/-- `fputc`, `fputs`, `putchar`, `printf`: the bytes go to the buffer, and the library may drain some of it. -/
def fput (s : PS σ) (k : Nat) (bs : Bytes) : Res Unit × PS σ :=
  match getStream s k with
  | .ok f =>
    let f := { f with pend := f.pend ++ bs }
    (.ok (), drain s k f (W.spill f.pend))
  | .ub => (.ub, s)
  | _ => (.ub, s)

/-- `fflush`. -/
def fflush (s : PS σ) (k : Nat) : Res Unit × PS σ :=
  match getStream s k with
  | .ok f => (.ok (), drain s k f f.pend.length)
  | .ub => (.ub, s)
  | _ => (.ub, s)

/-- `fclose`. -/
def fclose (s : PS σ) (k : Nat) : Res Unit × PS σ :=
  match getStream s k with
  | .ok f => (.ok (), drain s k { f with isOpen := false } f.pend.length)
  | .ub => (.ub, s)
  | _ => (.ub, s)

/-! ## Opening -/

/-- The fields every constructor initialises the same way. -/
def blank (k : Kind) (isInput : Bool) : PortRec := ⟨k, isInput, false, none, ⟨[], 0, false⟩, ⟨[], 0, false⟩, [], []⟩

/-- `scm_c_open_input_file`, src/c/port.cc:61-87, with `fopen(…, "r")`. -/
def openInputFile (s : PS σ) (name : Bytes) : Res Ans × PS σ :=
  match s.files (cstr name) with
  | none => (.err .evalError, s)
  | some data =>
    newPort { s with streams := s.streams ++ [⟨cstr name, Port.openIn data, 0, [], true⟩] }
      { blank .fileIn true with file := some s.streams.length }

/-- `scm_c_open_output_file`, src/c/port.cc:90-116, with `fopen(…, "w")`, which truncates the file. -/
def openOutputFile (s : PS σ) (name : Bytes) : Res Ans × PS σ :=
  if W.writable (cstr name) then
    newPort { s with
        streams := s.streams ++ [⟨cstr name, Port.openIn [], 0, [], true⟩]
        files := fun n => if n = cstr name then some [] else s.files n }
      { blank .fileOut false with file := some s.streams.length }
  else (.err .evalError, s)

/-- `scm_c_open_input_string`, src/c/port.cc:185-206. -/
def openInputString (s : PS σ) (text : Bytes) : Res Ans × PS σ := newPort s { blank .strIn true with inp := Port.openIn text }

/-- `scm_c_open_output_string`, src/c/port.cc:209-225. -/
def openOutputString (s : PS σ) : Res Ans × PS σ := newPort s { blank .strOut false with out := Port.openOut }

/-- `scm_c_make_soft_port`, src/c/port.cc:1108-1173. -/
def makeSoftPort (s : PS σ) (procs : List Obj) (modes : Bytes) : Res Ans × PS σ :=
  if procs.length < 5 ∨ procs.length > 6 then (.err .evalError, s)
  else if modes.contains 114 || modes.contains 119 then
    newPort s { blank .soft (modes.contains 114) with procs := procs, modes := modes }
  else (.err .evalError, s)

/-! ## Calling soft-port procedures -/

/-- `is_falsy`, src/c/pscm.h:67-72. -/
def falsy (o : Obj) : Bool := o.v == .bool false

/-- `call_soft_port_thunk`, src/c/port.cc:21-40, and the call with one character, src/c/port.cc:375-388: only procedures and builtins are
called.  `none` is the null pointer. -/
def callProc (s : PS σ) (f : Obj) (args : List Obj) : Res (Option Obj) × PS σ :=
  if falsy f then (.ok none, s)
  else match f.v with
    | .other .proc _ | .other .func _ =>
      let (r, u) := W.call f args s.user
      (r, { s with user := u })
    | _ => (.ok none, s)

/-- The character object passed to a soft port (`scm_from_char`); fresh, its identity is irrelevant. -/
def charObj (c : UInt8) : Obj := ⟨0, .chr c⟩

/-! ## Reading -/

/-- `read_char_from_port`, src/c/port.cc:262-303; `none` is `EOF`.  The end-of-file object is not a character, so the test for it is
covered by the last case. -/
def readCharFrom (s : PS σ) (i : Nat) (p : PortRec) : Res (Option UInt8) × PS σ :=
  if p.closed then (.ok none, s)
  else match p.kind with
    | .fileIn =>
      match p.file with
      | none => (.ok none, s)
      | some k =>
        match getStream s k with
        | .ok f => (.ok (Port.readChar f.inp).1, { s with streams := s.streams.set k { f with inp := (Port.readChar f.inp).2 } })
        | _ => (.ub, s)
    | .strIn => (.ok (Port.readChar p.inp).1, setPort s i { p with inp := (Port.readChar p.inp).2 })
    | .soft =>
      if p.isInput then
        match p.procs[3]? with
        | none => (.ok none, s)
        | some g =>
          match callProc W s g [] with
          | (.ok (some r), s') => (.ok (match r.v with | .chr c => some c | _ => none), s')
          | (.ok none, s') => (.ok none, s')
          | (.err e, s') => (.err e, s')
          | (.abort, s') => (.abort, s')
          | (.ub, s') => (.ub, s')
          | (.oof, s') => (.oof, s')
      else (.ok none, s)
    | _ => (.ok none, s)

/-- `peek_char_from_port`, src/c/port.cc:323-345: soft ports are not looked at. -/
def peekCharFrom (s : PS σ) (p : PortRec) : Res (Option UInt8) :=
  if p.closed then .ok none
  else match p.kind with
    | .fileIn =>
      match p.file with
      | none => .ok none
      | some k =>
        match getStream s k with
        | .ok f => .ok (Port.peekChar f.inp)
        | _ => .ub
    | .strIn => .ok (Port.peekChar p.inp)
    | _ => .ok none

/-- A character or the end-of-file object. -/
def ansChar : Option UInt8 → Ans
  | some c => .char c
  | none => .eof

/-- `strchr(modes, c) != nullptr`. -/
def hasMode (p : PortRec) (c : UInt8) : Bool := (cstr p.modes).contains c

/-- `scm_c_read_char`, src/c/port.cc:700-737. -/
def readChar (s : PS σ) : Arg → Res Ans × PS σ
  | .port i =>
    match getPort s i with
    | .ok p =>
      if (if p.kind = .soft then hasMode p 114 else p.isInput) then
        match readCharFrom W s i p with
        | (.ok c, s') => (.ok (ansChar c), s')
        | (.err e, s') => (.err e, s')
        | (.abort, s') => (.abort, s')
        | (.ub, s') => (.ub, s')
        | (.oof, s') => (.oof, s')
      else (.err .evalError, s)
    | _ => (.ub, s)
  | _ => (.err .evalError, s)

/-- `scm_c_peek_char`, src/c/port.cc:740-771. -/
def peekChar (s : PS σ) : Arg → Res Ans × PS σ
  | .port i =>
    match getPort s i with
    | .ok p =>
      if p.isInput then
        match peekCharFrom s p with
        | .ok c => (.ok (ansChar c), s)
        | _ => (.ub, s)
      else (.err .evalError, s)
    | _ => (.ub, s)
  | _ => (.err .evalError, s)

/-- What `read` returns: the end-of-file object or the answer of the parser. -/
def ansRead : Option Rd.R → Ans
  | some r => .datum r
  | none => .eof

/-- `scm_c_read`, src/c/port.cc:774-801, and `read_expr_from_port`, src/c/port.cc:561-697: the loops are those of `Port.readExpr`, fed from
the string or the stream; peeking at a soft port gives the end of file, so nothing is read from it. -/
def read (s : PS σ) : Arg → Res Ans × PS σ
  | .port i =>
    match getPort s i with
    | .ok p =>
      if p.isInput then
        if p.closed then (.ok .eof, s)
        else match p.kind with
          | .fileIn =>
            match p.file with
            | none => (.ok .eof, s)
            | some k =>
              match getStream s k with
              | .ok f =>
                (.ok (ansRead (Port.readExpr W.flo f.inp).1),
                  { s with streams := s.streams.set k { f with inp := (Port.readExpr W.flo f.inp).2 } })
              | _ => (.ub, s)
          | .strIn => (.ok (ansRead (Port.readExpr W.flo p.inp).1), setPort s i { p with inp := (Port.readExpr W.flo p.inp).2 })
          | _ => (.ok .eof, s)
      else (.err .evalError, s)
    | _ => (.ub, s)
  | _ => (.err .evalError, s)

/-- `scm_c_char_ready`, src/c/port.cc:872-912. -/
def charReady (s : PS σ) : Arg → Res Ans × PS σ
  | .absent => (.ok (.bool true), s)
  | .other => (.err .evalError, s)
  | .port i =>
    match getPort s i with
    | .ok p =>
      if p.isInput then
        if p.closed then (.ok (.bool false), s)
        else match p.kind with
          | .fileIn | .strIn =>
            match peekCharFrom s p with
            | .ok c => (.ok (.bool c.isSome), s)
            | _ => (.ub, s)
          | _ => (.ok (.bool false), s)
      else (.err .evalError, s)
    | _ => (.ub, s)

/-! ## Writing -/

/-- The answer of a writing operation. -/
def unspec : Res Unit × PS σ → Res Ans × PS σ
  | (.ok _, s) => (.ok .unspecified, s)
  | (.err e, s) => (.err e, s)
  | (.abort, s) => (.abort, s)
  | (.ub, s) => (.ub, s)
  | (.oof, s) => (.oof, s)

/-- Store into the buffer of a string output port. -/
def intoBuffer (s : PS σ) (i : Nat) (p : PortRec) (r : Res Out) : Res Unit × PS σ :=
  match r with
  | .ok o => (.ok (), setPort s i { p with out := o })
  | .err e => (.err e, s)
  | .abort => (.abort, s)
  | .ub => (.ub, s)
  | .oof => (.oof, s)

/-- `write_char_to_port_string`, src/c/port.cc:348-391. -/
def writeCharTo (s : PS σ) (i : Nat) (p : PortRec) (c : UInt8) : Res Unit × PS σ :=
  if p.closed then (.ok (), s)
  else match p.kind with
    | .fileOut => match p.file with | some k => fput W s k [c] | none => (.ok (), s)
    | .strOut => intoBuffer s i p (Port.writeChar p.out c)
    | .soft =>
      if p.isInput then (.ok (), s)
      else match p.procs[0]? with
        | none => (.ok (), s)
        | some f =>
          match callProc W s f [charObj c] with
          | (.ok _, s') => (.ok (), s')
          | (.err e, s') => (.err e, s')
          | (.abort, s') => (.abort, s')
          | (.ub, s') => (.ub, s')
          | (.oof, s') => (.oof, s')
    | _ => (.ok (), s)

/-- Standard output (`putchar`, `printf`). -/
def stdoutK : Nat := 1

/-- `scm_c_write_char`, src/c/port.cc:827-869. -/
def writeChar (s : PS σ) (c : UInt8) : Arg → Res Ans × PS σ
  | .absent => unspec (fput W s stdoutK [c])
  | .other => (.err .evalError, s)
  | .port i =>
    match getPort s i with
    | .ok p =>
      if (if p.kind = .soft then hasMode p 119 else !p.isInput) then unspec (writeCharTo W s i p c)
      else (.err .evalError, s)
    | _ => (.ub, s)

/-- `write_string_to_port`, src/c/string.cc:121-140: there is no case for soft ports. -/
def writeStringTo (s : PS σ) (i : Nat) (p : PortRec) (t : Bytes) : Res Unit × PS σ :=
  if p.closed then (.ok (), s)
  else match p.kind with
    | .fileOut => match p.file with | some k => fput W s k (cstr t) | none => (.ok (), s)
    | .strOut => intoBuffer s i p (Port.writeString p.out t)
    | _ => (.ok (), s)

/-- `scm_c_display` (`mode = false`) and `scm_c_write` (`mode = true`), src/c/string.cc:164-280. -/
def print (s : PS σ) (mode : Bool) (d : Rd.D) : Arg → Res Ans × PS σ
  | .absent => unspec (fput W s stdoutK (Rd.print W.flo mode d))
  | .other => (.err .evalError, s)
  | .port i =>
    match getPort s i with
    | .ok p => if p.isInput then (.err .evalError, s) else unspec (writeStringTo W s i p (Rd.print W.flo mode d))
    | _ => (.ub, s)

/-- `scm_c_newline`, src/c/string.cc:283-305, with the `write_char_to_port_string` of src/c/string.cc:143-160 (no soft ports). -/
def newline (s : PS σ) : Arg → Res Ans × PS σ
  | .absent => unspec (fput W s stdoutK [10])
  | .other => (.err .evalError, s)
  | .port i =>
    match getPort s i with
    | .ok p =>
      if p.isInput then (.err .evalError, s)
      else if p.kind = .soft then (.ok .unspecified, s)
      else unspec (writeCharTo W s i p 10)
    | _ => (.ub, s)

/-- `flush_port`, src/c/port.cc:394-415, and `scm_force_output`, src/c/port.cc:531-557. -/
def forceOutput (s : PS σ) : Arg → Res Ans × PS σ
  | .absent => unspec (fflush s stdoutK)
  | .other => (.err .evalError, s)
  | .port i =>
    match getPort s i with
    | .ok p =>
      if p.isInput then (.err .evalError, s)
      else if p.closed then (.ok .unspecified, s)
      else match p.kind with
        | .fileOut => match p.file with | some k => unspec (fflush s k) | none => (.ok .unspecified, s)
        | .soft =>
          match p.procs[2]? with
          | none => (.ok .unspecified, s)
          | some f =>
            match callProc W s f [] with
            | (.ok _, s') => (.ok .unspecified, s')
            | (.err e, s') => (.err e, s')
            | (.abort, s') => (.abort, s')
            | (.ub, s') => (.ub, s')
            | (.oof, s') => (.oof, s')
        | _ => (.ok .unspecified, s)
    | _ => (.ub, s)

/-- `scm_c_get_output_string`, src/c/port.cc:242-259; a string output port always has a buffer. -/
def getOutputString (s : PS σ) : Arg → Res Ans × PS σ
  | .port i =>
    match getPort s i with
    | .ok p => if p.kind = .strOut then (.ok (.str (Port.getOutput p.out)), s) else (.err .evalError, s)
    | _ => (.ub, s)
  | _ => (.err .evalError, s)

/-! ## Closing -/

/-- Mark a port closed. -/
def markClosed (s : PS σ) (i : Nat) (p : PortRec) : PS σ := setPort s i { p with closed := true }

/-- The common part of `scm_c_close_input_port` and `scm_c_close_output_port`, src/c/port.cc:131-146, 162-181: the close procedure of a
soft port is called before the port is marked closed. -/
def closePort (s : PS σ) (i : Nat) (p : PortRec) : Res Ans × PS σ :=
  if p.closed then (.ok .unspecified, s)
  else if p.kind = .soft then
    match p.procs[4]? with
    | none => (.ok .unspecified, markClosed s i p)
    | some f =>
      match callProc W s f [] with
      | (.ok _, s') => (.ok .unspecified, markClosed s' i p)
      | (.err e, s') => (.err e, s')
      | (.abort, s') => (.abort, s')
      | (.ub, s') => (.ub, s')
      | (.oof, s') => (.oof, s')
  else match p.file with
    | some k =>
      match fclose s k with
      | (.ok _, s') => (.ok .unspecified, markClosed s' i { p with file := none })
      | (_, s') => (.ub, s')
    | none => (.ok .unspecified, markClosed s i p)

/-- `scm_c_close_input_port`, src/c/port.cc:119-147. -/
def closeInputPort (s : PS σ) : Arg → Res Ans × PS σ
  | .port i =>
    match getPort s i with
    | .ok p => if p.isInput then closePort W s i p else (.err .evalError, s)
    | _ => (.ub, s)
  | _ => (.err .evalError, s)

/-- `scm_c_close_output_port`, src/c/port.cc:150-182. -/
def closeOutputPort (s : PS σ) : Arg → Res Ans × PS σ
  | .port i =>
    match getPort s i with
    | .ok p => if p.isInput then (.err .evalError, s) else closePort W s i p
    | _ => (.ub, s)
  | _ => (.err .evalError, s)

/-! ## Predicates and current ports -/

/-- `scm_c_is_input_port`, src/c/port.cc:809-815. -/
def isInputPort (s : PS σ) : Arg → Res Ans × PS σ
  | .port i => match getPort s i with | .ok p => (.ok (.bool p.isInput), s) | _ => (.ub, s)
  | _ => (.ok (.bool false), s)

/-- `scm_c_is_output_port`, src/c/port.cc:818-824. -/
def isOutputPort (s : PS σ) : Arg → Res Ans × PS σ
  | .port i => match getPort s i with | .ok p => (.ok (.bool (!p.isInput)), s) | _ => (.ub, s)
  | _ => (.ok (.bool false), s)

/-- Which of the current ports. -/
inductive Cur | input | output | error
  deriving DecidableEq, Repr

/-- `scm_current_input_port`, `scm_current_output_port`, `scm_current_error_port`, src/c/port.cc:421-438, 460-478, 495-513 (`init_port` has
created them). -/
def current (s : PS σ) : Cur → Nat
  | .input => s.curIn
  | .output => s.curOut
  | .error => s.curErr

/-- `scm_set_current_input_port` and the like, src/c/port.cc:441-454, 480-493, 515-528: the direction is checked, the old port returned. -/
def setCurrent (s : PS σ) (c : Cur) : Arg → Res Ans × PS σ
  | .port i =>
    match getPort s i with
    | .ok p =>
      if p.isInput = decide (c = .input) then
        (.ok (.port (current s c)), match c with
          | .input => { s with curIn := i }
          | .output => { s with curOut := i }
          | .error => { s with curErr := i })
      else (.err .evalError, s)
    | _ => (.ub, s)
  | _ => (.err .evalError, s)

/-- `init_port`, src/c/port.cc:1175-1186: the ports on standard error, standard input and standard output, created in this order; the
streams are numbered 0 (stdin), 1 (stdout), 2 (stderr).  What they refer to is given names with a NUL byte, which no file has. -/
def initial (files : Bytes → Option Bytes) (stdin : Bytes) (u : σ) : PS σ :=
  { ports := [{ blank .fileOut false with file := some 2 }, { blank .fileIn true with file := some 0 }, { blank .fileOut false with file := some 1 }]
    streams := [⟨[0], Port.openIn stdin, 0, [], true⟩, ⟨[0, 1], Port.openIn [], 0, [], true⟩, ⟨[0, 2], Port.openIn [], 0, [], true⟩]
    files := files, curIn := 1, curOut := 2, curErr := 0, user := u }

/-! ## Programs -/

/-- The operations of the layer. -/
inductive Op
  | openIn (name : Bytes) | openOut (name : Bytes) | openInStr (s : Bytes) | openOutStr | soft (procs : List Obj) (modes : Bytes)
  | readChar (a : Arg) | peekChar (a : Arg) | read (a : Arg) | ready (a : Arg)
  | writeChar (c : UInt8) (a : Arg) | print (mode : Bool) (d : Rd.D) (a : Arg) | newline (a : Arg) | flush (a : Arg)
  | getOutput (a : Arg) | closeIn (a : Arg) | closeOut (a : Arg) | isIn (a : Arg) | isOut (a : Arg)
  | current (c : Cur) | setCurrent (c : Cur) (a : Arg)

/-- One operation (`init_port`, src/c/port.cc:1187-1227, and the output procedures of `init_string`). -/
def step (s : PS σ) : Op → Res Ans × PS σ
  | .openIn n => openInputFile s n
  | .openOut n => openOutputFile W s n
  | .openInStr t => openInputString s t
  | .openOutStr => openOutputString s
  | .soft ps m => makeSoftPort s ps m
  | .readChar a => readChar W s a
  | .peekChar a => peekChar s a
  | .read a => read W s a
  | .ready a => charReady s a
  | .writeChar c a => writeChar W s c a
  | .print m d a => print W s m d a
  | .newline a => newline W s a
  | .flush a => forceOutput W s a
  | .getOutput a => getOutputString s a
  | .closeIn a => closeInputPort W s a
  | .closeOut a => closeOutputPort W s a
  | .isIn a => isInputPort s a
  | .isOut a => isOutputPort s a
  | .current c => (.ok (.port (current s c)), s)
  | .setCurrent c a => setCurrent s c a

/-- A program: a sequence of operations.  A Scheme error is caught by the program and the next operation follows; undefined behaviour and
abort end it. -/
def runs (s : PS σ) : List Op → Option (List (Option Ans) × PS σ)
  | [] => some ([], s)
  | o :: os =>
    match step W s o with
    | (.ok a, s') => (runs s' os).map fun (as, s'') => (some a :: as, s'')
    | (.err _, s') => (runs s' os).map fun (as, s'') => (none :: as, s'')
    | _ => none

end Pscm.Ports

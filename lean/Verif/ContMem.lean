/-!
# Continuations: copying the C stack (src/c/continuation.cc)

Model of the memory side of call/cc.  The C stack is a memory of words with addresses counted in words; it grows downwards, `top` is the lowest
address that belongs to the frame of the running function, so that the words from `top` upwards are alive.

Parameters (`Frames`): the sizes of the frames involved, which the compiler chooses.  Assumed of the compiler, and stated here because the C++ standard does
not grant it: functions are not inlined into each other, the frame of a callee lies wholly below the locals of its caller, and a call of `grow_stack` moves the
stack pointer (`gr` is positive; src/c/continuation.cc:115-127 declares an array of 100 words for that, which an optimising compiler may drop).
Not modelled here: the wind chain (see `EvWindProps`), the catch stack (C62), the registers in the jump buffer (an opaque `regs`).
-/

namespace Pscm.Cm

/-- Sizes, in words, of the frames that matter. -/
structure Frames where
  /-- From the top of the frame of `scm_make_continuation` down to the local `stack` of `scm_stack_size` (src/c/continuation.cc:8-12). -/
  ms : Nat
  /-- From the top of the caller's frame down to the local `stack_top_element` of `scm_dynthrow` (src/c/continuation.cc:108). -/
  th : Nat
  /-- From `stack_top_element` down to the end of the frame of `grow_stack` (src/c/continuation.cc:123-127). -/
  gr : Nat
  /-- The frames of `copy_stack_and_call` and `memcpy` below `scm_dynthrow` (src/c/continuation.cc:80-98). -/
  cp : Nat
  /-- Lowest usable address of the stack. -/
  lo : Nat
  /-- A call of `grow_stack` moves the stack pointer. -/
  gr_pos : 0 < gr

/-- `SCM_Continuation` (src/c/pscm_types.h:90-99): the fields `stack_data` (with `stack_len` words), `stack_src`, `saved_module`,
and the contents of the jump buffer (`regs`, `sp`). -/
structure Cont where
  data : List Nat
  src : Nat
  module : Nat
  regs : Nat
  sp : Nat

/-- The state of the process as far as continuations are concerned; `H` is everything else (heap, files, ...). -/
structure St (H : Type) where
  mem : Nat → Nat
  top : Nat
  /-- `cont_base` (src/c/pscm.h:1000). -/
  base : Option Nat
  module : Nat
  heap : H
  conts : List Cont

/-- How an action ends: the program goes on, the program goes on at the place where continuation `id` was captured with the value `v`
(the second return of `setjmp`), the stack overflows, or the behaviour is undefined. -/
inductive Res (H : Type) where
  | on (s : St H)
  | resumed (id : Nat) (v : Nat) (regs : Nat) (s : St H)
  | overflow
  | ub

/-- The words at `a`, `a + 1`, ..., `a + n - 1`. -/
def slice (m : Nat → Nat) (a : Nat) : Nat → List Nat
  | 0 => []
  | n + 1 => m a :: slice m (a + 1) n

/-- `memcpy (dst, data, ...)`. -/
def blit (m : Nat → Nat) (dst : Nat) : List Nat → Nat → Nat
  | [], a => m a
  | w :: ws, a => if a = dst then w else blit m (dst + 1) ws a

/-- `if (!cont_base) { long stack_base; cont_base = &stack_base; }` (src/c/eval.cc:48-51, src/c/pscm_api.cc:33-36): `b` is the address of the local.
The first evaluation is part of the initialisation (src/c/debug.cc:315, called by `init_scm`). -/
def enter {H : Type} (b : Nat) (s : St H) : St H :=
  match s.base with
  | some _ => s
  | none => { s with base := some b }

/-- `scm_make_continuation`, the first return (src/c/continuation.cc:30-61).  `&stack` is `top - ms`; the length is `cont_base - &stack`.  Without
a `cont_base`, or with a negative length (converted to an enormous `size_t`: `malloc` fails and `memcpy` writes to address 0), the behaviour is undefined. -/
def capture {H : Type} (F : Frames) (regs : Nat) (s : St H) : Res H :=
  match s.base with
  | none => .ub
  | some b =>
    if s.top < F.lo + F.ms then .overflow
    else if b < s.top - F.ms then .ub
    else .on { s with
      conts := s.conts ++ [{ data := slice s.mem (s.top - F.ms) (b - (s.top - F.ms)), src := s.top - F.ms, module := s.module,
                             regs := regs, sp := s.top }] }

/-- `copy_stack_and_call` and the second return of `scm_make_continuation` (src/c/continuation.cc:62-69, 80-98), called from `scm_dynthrow` with the local
`stack_top_element` at `l`; the frames of the copying functions are the words from `l - cp` to `l`, and overwriting one of them while copying is undefined
behaviour.  `junk` is what the frames of the calls made since have left below the top. -/
def copyBack {H : Type} (F : Frames) (c : Cont) (id v : Nat) (l : Nat) (junk : Nat → Nat) (s : St H) : Res H :=
  if l < F.lo + F.cp then .overflow
  else if c.data ≠ [] ∧ c.src ≤ l ∧ l - F.cp < c.src + c.data.length then .ub
  else .resumed id v c.regs { s with
    mem := blit (fun a => if a < s.top then junk a else s.mem a) c.src c.data
    top := c.sp
    module := c.module }

/-- `scm_dynthrow` and `grow_stack` without the wind chain (src/c/continuation.cc:100-127), called from a frame with top `t`.  When `grow_stack` was called the
frames are deeper and the test is made again. -/
def dynthrow {H : Type} (F : Frames) (c : Cont) (id v : Nat) (junk : Nat → Nat) (s : St H) (t : Nat) : Res H :=
  if t < F.lo + F.th then .overflow
  else if c.src ≤ t - F.th then
    if t < F.lo + F.th + F.gr then .overflow
    else dynthrow F c id v junk s (t - F.th - F.gr)
  else copyBack F c id v (t - F.th) junk s
termination_by t
decreasing_by have := F.gr_pos; omega

/-- What a program can do with the stack, the heap and continuations. -/
inductive Act (H : Type) where
  /-- A store to the word at `a`. -/
  | store (a w : Nat)
  /-- Calls and returns: the frame of the running function now ends at `t`. -/
  | move (t : Nat)
  /-- Any change of the heap. -/
  | heap (f : H → H)
  /-- `scm_set_current_module`. -/
  | setModule (m : Nat)
  /-- The beginning of an evaluation. -/
  | enter (b : Nat)
  /-- call/cc. -/
  | capture (regs : Nat)
  /-- The call of a continuation. -/
  | throw (id v : Nat) (junk : Nat → Nat)

/-- One action. -/
def act {H : Type} (F : Frames) (s : St H) : Act H → Res H
  | .store a w => .on { s with mem := fun x => if x = a then w else s.mem x }
  | .move t => .on { s with top := t }
  | .heap f => .on { s with heap := f s.heap }
  | .setModule m => .on { s with module := m }
  | .enter b => .on (enter b s)
  | .capture regs => capture F regs s
  | .throw id v junk =>
    match s.conts[id]? with
    | none => .on s
    | some c => dynthrow F c id v junk s s.top

/-- A history of actions; after a continuation was called the history goes on from the state it restored. -/
def runs {H : Type} (F : Frames) (s : St H) : List (Act H) → Res H
  | [] => .on s
  | a :: as =>
    match act F s a with
    | .on s' => runs F s' as
    | .resumed _ _ _ s' => runs F s' as
    | .overflow => .overflow
    | .ub => .ub

end Pscm.Cm

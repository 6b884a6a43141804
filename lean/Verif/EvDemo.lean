import Verif.EvSpec
/-! # A small concrete interpreter state, for the examples beside the theorems -/
namespace Pscm.Ev.Demo
open Pscm.Ev

/-- A few builtins. -/
def prims : Prims Unit where
  call := fun name args u =>
    match name, args with
    | "+", [.num a, .num b] => .done (.ok (.num (a + b))) u
    | "cons", [a, b] => .done (.ok (.pair a b)) u
    | "car", [.pair a _] => .done (.ok a) u
    | "list", xs => .done (.ok (listOf xs)) u
    | "<", [.num a, .num b] => .done (.ok (.bool (a < b))) u
    | _, _ => .done (.raise "wrong-type-arg" .nil) u
  init := fun _ => .num 0
  file := fun _ _ => .missing

def builtins : List (Name × V) :=
  [("+", .func "+" (-1)), ("cons", .func "cons" 2), ("car", .func "car" 1), ("list", .func "list" (-2)),
   ("<", .func "<" 2), ("values", .func "values" (-2)), ("force", .func "force" 1), ("catch", .func "catch" (-2)),
   ("throw", .func "throw" (-2))]

/-- The initial state: the global environment and the root module. -/
def s0 : St Unit where
  frames := [⟨builtins, Option.none, Option.none⟩]
  mods := [⟨listOf [.sym "root"], [], [], [], Option.none⟩]
  cur := 0
  root := 0
  proms := []
  catches := []
  live := []
  winds := []
  conts := []
  next := 0
  ext := ()

/-- Symbols, numbers, lists: to write programs. -/
def y (x : Name) : V := .sym x
def n (i : Int) : V := .num i
def l (xs : List V) : V := listOf xs

/-- The initial state with one procedure frame that binds the given variables. -/
def inFrame (es : List (Name × V)) : St Unit :=
  { s0 with frames := s0.frames ++ [⟨es, some 0, Option.none⟩] }

theorem noMacro_s0 (x : Name) : NoMacro s0 x := by
  refine ⟨?_, ?_⟩
  · intro f hf v hv
    simp only [s0, List.mem_singleton] at hf
    subst hf
    simp only [builtins, List.mem_cons, Prod.mk.injEq, List.not_mem_nil, or_false] at hv
    rcases hv with ⟨_, rfl⟩ | ⟨_, rfl⟩ | ⟨_, rfl⟩ | ⟨_, rfl⟩ | ⟨_, rfl⟩ | ⟨_, rfl⟩ | ⟨_, rfl⟩ | ⟨_, rfl⟩ | ⟨_, rfl⟩ <;> rfl
  · intro m hm v hv
    simp only [s0, List.mem_singleton] at hm
    subst hm
    cases hv

theorem wf_s0 : FramesWF s0.frames := by
  intro i f p hf hp
  match i with
  | 0 => cases hf; cases hp
  | i + 1 => cases hf

theorem noMacro_inFrame {es : List (Name × V)} (x : Name) (h : ∀ p ∈ es, isMacro p.2 = false) : NoMacro (inFrame es) x := by
  refine ⟨?_, (noMacro_s0 x).2⟩
  intro f hf v hv
  simp only [inFrame, List.mem_append, List.mem_singleton] at hf
  rcases hf with hf | rfl
  · exact (noMacro_s0 x).1 f hf v hv
  · exact h _ hv

theorem wf_inFrame (es : List (Name × V)) : FramesWF (inFrame es).frames := by
  intro i f p hf hp
  match i with
  | 0 => cases hf; cases hp
  | 1 => cases hf; cases hp; decide
  | i + 2 => cases hf

/-- Running a program on the model. -/
theorem evals_of {e : V} {env : Nat} {s : St Unit} {o : Out V} (n : Nat) (h : (ev prims n (.eval env e) s).map Prod.fst = some o) :
    ∃ s', Evals prims env e s o s' := by
  cases hr : ev prims n (.eval env e) s with
  | none => rw [hr] at h; cases h
  | some q =>
    rw [hr] at h
    simp only [Option.map_some, Option.some.injEq] at h
    exact ⟨q.2, n, by rw [hr, ← h]⟩

end Pscm.Ev.Demo

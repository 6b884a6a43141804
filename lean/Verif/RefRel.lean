import Verif.RefSem
import Verif.Registry
import Verif.EvApply
/-!
# The sublanguage as programs of the interpreter, and the relation between the states of the two
-/
namespace Pscm.Ref
open Pscm.Ev (V St Frame Modl Out Prims paramList listOf)

/-- A datum as a value of the interpreter. -/
def Datum.toV : Datum → V
  | .nil => .nil
  | .bool b => .bool b
  | .num n => .num n
  | .chr c => .chr c
  | .str s => .str s
  | .sym x => .sym x
  | .pair a d => .pair a.toV d.toV

def Const.toV : Const → V
  | .bool b => .bool b
  | .num n => .num n
  | .chr c => .chr c
  | .str s => .str s

/-- `((x e) ...)` -/
def bindings (xs : List Name) (es : List V) : V := listOf ((xs.zip es).map fun b => listOf [.sym b.1, b.2])

/-- `(t b ...) ...` -/
def clauses (ts : List V) (bs : List (List V)) : List V := List.zipWith (fun t b => .pair t (listOf b)) ts bs

/-- `(else e ...)`, if there is one. -/
def elseClause : List V → List V
  | [] => []
  | e :: es => [.pair (.sym "else") (listOf (e :: es))]

/-- `(x e s ...) ...` -/
def loopVars : List Name → List V → List (List V) → List V
  | x :: xs, e :: es, s :: ss => .pair (.sym x) (.pair e (listOf s)) :: loopVars xs es ss
  | _, _, _ => []

mutual
/-- An expression as the list the reader makes of it. -/
def Exp.toV : Exp → V
  | .const c => c.toV
  | .quote d => listOf [.sym "quote", d.toV]
  | .var x => .sym x
  | .lam ps rest body => .pair (.sym "lambda") (.pair (paramList ps rest) (listOf (Exp.toVs body)))
  | .app f args => .pair f.toV (listOf (Exp.toVs args))
  | .ite c a b => listOf [.sym "if", c.toV, a.toV, b.toV]
  | .ite1 c a => listOf [.sym "if", c.toV, a.toV]
  | .set x e => listOf [.sym "set!", .sym x, e.toV]
  | .begin es => .pair (.sym "begin") (listOf (Exp.toVs es))
  | .let_ xs es body => .pair (.sym "let") (.pair (bindings xs (Exp.toVs es)) (listOf (Exp.toVs body)))
  | .namedLet f xs es body => listOf [.sym "let", .sym f, bindings xs (Exp.toVs es), body.toV]
  | .letStar xs es body => .pair (.sym "let*") (.pair (bindings xs (Exp.toVs es)) (listOf (Exp.toVs body)))
  | .letrec xs es body => .pair (.sym "letrec") (.pair (bindings xs (Exp.toVs es)) (listOf (Exp.toVs body)))
  | .and es => .pair (.sym "and") (listOf (Exp.toVs es))
  | .or es => .pair (.sym "or") (listOf (Exp.toVs es))
  | .cond ts bs els => .pair (.sym "cond") (listOf (clauses (Exp.toVs ts) (Exp.toVss bs) ++ elseClause (Exp.toVs els)))
  | .case k ds bs els => .pair (.sym "case") (.pair k.toV
      (listOf (clauses (ds.map fun l => listOf (l.map Datum.toV)) (Exp.toVss bs) ++ elseClause (Exp.toVs els))))
  | .loop xs es ss t rs bs => .pair (.sym "do") (.pair (listOf (loopVars xs (Exp.toVs es) (Exp.toVss ss)))
      (.pair (.pair t.toV (listOf (Exp.toVs rs))) (listOf (Exp.toVs bs))))
  | .map f ls => .pair (.sym "map") (.pair f.toV (listOf (Exp.toVs ls)))
  | .forEach f ls => .pair (.sym "for-each") (.pair f.toV (listOf (Exp.toVs ls)))
  | .apply f l => listOf [.sym "apply", f.toV, l.toV]
  | .quasi t => listOf [.sym "quasiquote", t.toV]
  | .define x e => listOf [.sym "define", .sym x, e.toV]
def Template.toV : Template → V
  | .datum d => d.toV
  | .unquote e => listOf [.sym "unquote", e.toV]
  | .splice e t => .pair (listOf [.sym "unquote-splicing", e.toV]) t.toV
  | .pair a d => .pair a.toV d.toV
def Exp.toVs : List Exp → List V
  | [] => []
  | e :: es => e.toV :: Exp.toVs es
def Exp.toVss : List (List Exp) → List (List V)
  | [] => []
  | es :: ess => Exp.toVs es :: Exp.toVss ess
end

/-- The macros of the initial state of the interpreter. -/
def macroNames : List Name := ["read-set!", "read-enable", "read-disable", "debug-set!", "debug-enable", "debug-disable"]

/-- Names that are not variables: the keywords of the interpreter, and its macros. -/
def reserved : List Name := macroNames ++
  ["define", "define-macro", "define-module", "use-modules", "export", "re-export", "define-public", "let", "let*", "letrec", "call/cc",
   "call-with-current-continuation", "lambda", "set!", "quote", "quasiquote", "if", "and", "or", "delay", "cond", "case", "begin", "for-each",
   "do", "map", "map-in-order", "apply", "call-with-values", "dynamic-wind", "else", "=>"]

/-- A variable is not a keyword and does not begin with a colon or with `__temp_` (the names the interpreter gives to the values of a named `let`). -/
def IsVar (x : Name) : Prop := x ∉ reserved ∧ x.toList.head? ≠ some ':' ∧ x.toList.take 7 ≠ ['_', '_', 't', 'e', 'm', 'p', '_']

/-- The symbols with a meaning in templates do not occur in the datum. -/
def Datum.Plain : Datum → Prop
  | .sym x => x ≠ "unquote" ∧ x ≠ "quasiquote" ∧ x ≠ "unquote-splicing"
  | .pair a d => a.Plain ∧ d.Plain
  | _ => True

mutual
/-- The expressions of the sublanguage: variables are variables, the parameters of a procedure are distinct, bodies are not empty, there are as many
initialisers as variables and as many bodies as tests, `cond` has a clause, `map` a list, and `for-each` a list and at most ten.
Templates are not nested.  The definitions of a body come first; they define other variables than the parameters. -/
def Exp.Ok : Exp → Prop
  | .const _ => True
  | .quote _ => True
  | .var x => IsVar x
  | .lam ps rest body => (∀ x ∈ ps ++ rest.toList, IsVar x) ∧ (ps ++ rest.toList ++ defs body).Nodup ∧ body ≠ [] ∧ Exp.BodyOk body
  | .app f args => f.Ok ∧ Exp.Oks args
  | .ite c a b => c.Ok ∧ a.Ok ∧ b.Ok
  | .ite1 c a => c.Ok ∧ a.Ok
  | .set x e => IsVar x ∧ e.Ok
  | .begin es => es ≠ [] ∧ Exp.Oks es
  | .let_ xs es body => (∀ x ∈ xs, IsVar x) ∧ (xs ++ defs body).Nodup ∧ xs.length = es.length ∧ Exp.Oks es ∧ body ≠ [] ∧ Exp.BodyOk body
  | .namedLet f xs es body => IsVar f ∧ (∀ x ∈ xs, IsVar x) ∧ xs.Nodup ∧ xs.length = es.length ∧ Exp.Oks es ∧ body.Ok
  | .letStar xs es body => (∀ x ∈ xs, IsVar x ∧ x ∉ defs body) ∧ (defs body).Nodup ∧ xs.length = es.length ∧ Exp.Oks es ∧ body ≠ [] ∧ Exp.BodyOk body
  | .letrec xs es body => (∀ x ∈ xs, IsVar x) ∧ (xs ++ defs body).Nodup ∧ xs.length = es.length ∧ xs ≠ [] ∧ Exp.Oks es ∧ body ≠ [] ∧ Exp.BodyOk body
  | .and es => Exp.Oks es
  | .or es => Exp.Oks es
  | .cond ts bs els => ts.length = bs.length ∧ Exp.Oks ts ∧ (∀ b ∈ bs, b ≠ []) ∧ Exp.Okss bs ∧ (ts ≠ [] ∨ els ≠ []) ∧ Exp.Oks els
  | .case k ds bs els => k.Ok ∧ ds.length = bs.length ∧ (∀ b ∈ bs, b ≠ []) ∧ Exp.Okss bs ∧ Exp.Oks els
  | .loop xs es ss t rs bs => (∀ x ∈ xs, IsVar x) ∧ xs.Nodup ∧ xs.length = es.length ∧ xs.length = ss.length ∧ Exp.Oks es ∧ (∀ s ∈ ss, s.length ≤ 1) ∧
      Exp.Okss ss ∧ t.Ok ∧ Exp.Oks rs ∧ Exp.Oks bs
  | .map f ls => f.Ok ∧ ls ≠ [] ∧ Exp.Oks ls
  | .forEach f ls => f.Ok ∧ ls ≠ [] ∧ ls.length ≤ 10 ∧ Exp.Oks ls
  | .apply f l => f.Ok ∧ l.Ok
  | .quasi t => t.Ok
  | .define _ _ => False
def Template.Ok : Template → Prop
  | .datum d => d.Plain
  | .unquote e => e.Ok
  | .splice e t => e.Ok ∧ t.Ok
  | .pair a d => a.Ok ∧ d.Ok
def Exp.Oks : List Exp → Prop
  | [] => True
  | e :: es => e.Ok ∧ Exp.Oks es
def Exp.Okss : List (List Exp) → Prop
  | [] => True
  | es :: ess => Exp.Oks es ∧ Exp.Okss ess
/-- Definitions, then expressions. -/
def Exp.BodyOk : List Exp → Prop
  | [] => True
  | .define x e :: es => IsVar x ∧ e.Ok ∧ es ≠ [] ∧ Exp.BodyOk es
  | e :: es => e.Ok ∧ Exp.Oks es
end

/-- Which environment of the interpreter stands for which variables: the location of each variable of the frame, and its parent. -/
abbrev World := Nat → Option (List (Name × Nat) × Nat)

/-- The frame `e` and its ancestors are the environment `ρ`. -/
inductive EnvAt (W : World) : Nat → Env → Prop
  | top : EnvAt W 0 []
  | rib {e bs p ρ} : W e = some (bs, p) → EnvAt W p ρ → EnvAt W e (bs ++ ρ)

/-- The value of the interpreter stands for the value of the semantics.  `A` are the builtins with their arities. -/
def VRel (A : Name → Int → Prop) (W : World) : Val → V → Prop
  | .nil, v => v = .nil
  | .bool b, v => v = .bool b
  | .num n, v => v = .num n
  | .chr c, v => v = .chr c
  | .str s, v => v = .str s
  | .sym x, v => v = .sym x
  | .pair a d, v => ∃ a' d', v = .pair a' d' ∧ VRel A W a a' ∧ VRel A W d d'
  | .unspecified, v => v = .none
  | .undefined, _ => False
  | .unassigned, _ => False
  | .prim x, v => ∃ a, A x a ∧ v = .func x a
  | .clo ps rest body ρ, v => ∃ e, v = .proc (paramList ps rest) (listOf (Exp.toVs body)) e ∧ EnvAt W e ρ ∧ (Exp.lam ps rest body).Ok

/-- The same for lists of values. -/
inductive VRels (A : Name → Int → Prop) (W : World) : List Val → List V → Prop
  | nil : VRels A W [] []
  | cons {v vs w ws} : VRel A W v w → VRels A W vs ws → VRels A W (v :: vs) (w :: ws)

variable {σ : Type}

/-- The value of a global variable of the interpreter: in the global environment, else in the root module. -/
def topVal (es : List (Name × V)) (ob : List (Name × V)) (x : Name) : Option V :=
  match es.lookup x with
  | some v => some v
  | none => ob.lookup x

/-- What stays the same: the `catch` expressions that are active, and how the state of the builtins reflects what the program printed.  Errors are caught by the activation `target`, or not at all. -/
structure Fixed (σ : Type) where
  ext : List Event → σ → Prop
  catches : List Pscm.Ev.Catch
  live : List Nat
  target : Option Nat
  ok : ∀ k, Pscm.Ev.scan live k catches = match target with | some id => .catch id | Option.none => .uncaught

/-- No `catch` is active and the state of the builtins does not change. -/
def Fixed.bare (x : σ) : Fixed σ := ⟨fun _ y => y = x, [], [], Option.none, fun _ => rfl⟩

/-- Errors are caught by the activation `t`, or not at all. -/
def Throws (t : Option Nat) (s : St σ) : Prop := ∀ k a, Pscm.Ev.throwStop s k a = .err t k a

/-- The state of the interpreter stands for the store. -/
structure StRel (X0 : Fixed σ) (A : Name → Int → Prop) (W : World) (st : Store) (s : St σ) : Prop where
  wf : Pscm.Ev.FramesWF s.frames
  rib : ∀ e bs p, W e = some (bs, p) → 0 < e ∧
    ∃ es, s.frames[e]? = some ⟨es, some p, Option.none⟩ ∧
      (∀ x, IsVar x → bs.lookup x = Option.none → es.lookup x = Option.none) ∧
      (∀ x l, bs.lookup x = some l → ∃ v, st.cells[l]? = some v ∧
        (v = .unassigned ∨ ∃ w, es.lookup x = some w ∧ (v = .undefined ∨ VRel A W v w)))
  inj : ∀ e bs p x e' bs' p' x' l, W e = some (bs, p) → bs.lookup x = some l → W e' = some (bs', p') → bs'.lookup x' = some l → e = e' ∧ x = x'
  macros : ∀ f ∈ s.frames, ∀ q ∈ f.entries, q.1 ∈ macroNames ∨ Pscm.Ev.isMacro q.2 = false
  modMacros : ∀ m ∈ s.mods, ∀ q ∈ m.obarray, Pscm.Ev.isMacro q.2 = false
  curRoot : s.cur = s.root
  catches : s.catches = X0.catches ∧ s.live = X0.live
  ext : X0.ext st.out s.ext
  kept : ∀ x ∈ macroNames, Pscm.Ev.lookOwn s.frames 0 x = Pscm.Ev.initMacros.lookup x
  top : ∃ es md, s.frames[0]? = some ⟨es, Option.none, Option.none⟩ ∧ s.mods[s.root]? = some md ∧ md.uses = [] ∧
    (∀ x, x ∉ macroNames → st.globals.lookup x = Option.none → topVal es md.obarray x = Option.none) ∧
    (∀ x v, st.globals.lookup x = some v → ∃ w, topVal es md.obarray x = some w ∧ VRel A W v w) ∧
    (∀ x w, es.lookup x = some w → x ∈ macroNames ∨ ∃ a, A x a)

theorem StRel.throws {X0 : Fixed σ} {A W st} {s : St σ} (h : StRel X0 A W st s) : Throws X0.target s := by
  intro k a
  unfold Pscm.Ev.throwStop
  rw [h.catches.1, h.catches.2, X0.ok]
  cases X0.target <;> rfl

end Pscm.Ref

/-!
# A reference semantics for a sublanguage of Scheme

This file is a specification.  It does not model any code of the interpreter and imports nothing: it is the standard environment-and-store
semantics of Scheme (R5RS chapter 7.2, with arguments evaluated from left to right) for the expressions

  constants, `quote`, variables, `lambda` (with a rest parameter), procedure call, `if`, `set!`, `begin`, `let`, named `let`, `let*`, `letrec`, `and`, `or`,
  `cond`, `case`, `do`, `map`, `for-each`, `apply`, `quasiquote`, internal definitions

and for programs made of expressions and definitions.  The evaluator is a function of the number of nested evaluations it may use; `unknown` is the answer
when that number does not suffice, and where the semantics assigns no meaning.
-/
namespace Pscm.Ref

abbrev Name := String

/-- External representations of data. -/
inductive Datum
  | nil
  | bool (b : Bool)
  | num (n : Int)
  | chr (c : UInt8)
  | str (s : String)
  | sym (x : Name)
  | pair (a d : Datum)
  deriving DecidableEq

/-- Self-evaluating constants. -/
inductive Const
  | bool (b : Bool)
  | num (n : Int)
  | chr (c : UInt8)
  | str (s : String)
  deriving DecidableEq

mutual

/-- Expressions. -/
inductive Exp
  | const (c : Const)
  | quote (d : Datum)
  | var (x : Name)
  /-- `(lambda (x ... . r) body ...)` -/
  | lam (ps : List Name) (rest : Option Name) (body : List Exp)
  | app (f : Exp) (args : List Exp)
  | ite (c a b : Exp)
  | ite1 (c a : Exp)
  | set (x : Name) (e : Exp)
  | begin (es : List Exp)
  | let_ (xs : List Name) (es : List Exp) (body : List Exp)
  /-- `(let f ((x e) ...) body)` -/
  | namedLet (f : Name) (xs : List Name) (es : List Exp) (body : Exp)
  | letStar (xs : List Name) (es : List Exp) (body : List Exp)
  | letrec (xs : List Name) (es : List Exp) (body : List Exp)
  | and (es : List Exp)
  | or (es : List Exp)
  /-- `(cond (t b ...) ... (else e ...))`, without the last clause if `els` is empty -/
  | cond (ts : List Exp) (bs : List (List Exp)) (els : List Exp)
  /-- `(case k ((d ...) b ...) ... (else e ...))`, without the last clause if `els` is empty -/
  | case (k : Exp) (ds : List (List Datum)) (bs : List (List Exp)) (els : List Exp)
  /-- `(do ((x e s) ...) (t r ...) b ...)`; a variable may have no step `s` -/
  | loop (xs : List Name) (es : List Exp) (ss : List (List Exp)) (t : Exp) (rs : List Exp) (bs : List Exp)
  /-- `(map f l ...)` -/
  | map (f : Exp) (ls : List Exp)
  /-- `(for-each f l ...)` -/
  | forEach (f : Exp) (ls : List Exp)
  /-- `(apply f l)` -/
  | apply (f l : Exp)
  /-- `(quasiquote t)` -/
  | quasi (t : Template)
  /-- `(define x e)`, at the beginning of a body -/
  | define (x : Name) (e : Exp)

/-- Templates of `quasiquote`. -/
inductive Template
  | datum (d : Datum)
  /-- `(unquote e)` -/
  | unquote (e : Exp)
  /-- `((unquote-splicing e) . t)` -/
  | splice (e : Exp) (t : Template)
  | pair (a d : Template)

end

/-- The location of each variable in scope, innermost first. -/
abbrev Env := List (Name × Nat)

/-- Values. -/
inductive Val
  | nil
  | bool (b : Bool)
  | num (n : Int)
  | chr (c : UInt8)
  | str (s : String)
  | sym (x : Name)
  | pair (a d : Val)
  /-- the value of expressions that have no interesting one -/
  | unspecified
  /-- the content of a variable of `letrec` before it is initialised -/
  | undefined
  /-- the content of a variable of a body before its definition -/
  | unassigned
  /-- a builtin procedure -/
  | prim (name : Name)
  /-- a procedure: parameters, rest parameter, body, environment of the `lambda` -/
  | clo (ps : List Name) (rest : Option Name) (body : List Exp) (ρ : Env)

/-- What a program prints: a value in the way of `display` or of `write`, or the end of the line. -/
inductive Event
  | display (v : Val)
  | write (v : Val)
  | newline

/-- The contents of the locations and of the global variables, and what was printed so far. -/
structure Store where
  cells : List Val
  globals : List (Name × Val)
  out : List Event

/-- An answer: a result, or an error is signalled, with the store at this moment, or the semantics does not say.  The store is left open (`none`) in calls with too
many arguments and calls of data, where it depends on how many arguments are evaluated before the error is noticed. -/
inductive Ans (α : Type)
  | val (a : α)
  | error (after : Option Store)
  | unknown

/-- The answer of a builtin: a result, an error, or the semantics does not say. -/
inductive Ret (α : Type)
  | val (a : α)
  | error
  | unknown

def Ret.bind {α β : Type} : Ret α → (α → Ret β) → Ret β
  | .val a, f => f a
  | .error, _ => .error
  | .unknown, _ => .unknown

/-- The result of a builtin that printed something. -/
def afterPrint (v : Val) (st : Store) : List Event → Ans (Val × Store)
  | [] => .val (v, st)
  | es => .val (v, { st with out := st.out ++ es })

def Ans.bind {α β : Type} : Ans α → (α → Ans β) → Ans β
  | .val a, f => f a
  | .error o, _ => .error o
  | .unknown, _ => .unknown

/-- The same, but the store at an error is left open. -/
def Ans.vague {α : Type} : Ans α → Ans α
  | .error _ => .error none
  | a => a

/-- An error, unless the semantics does not say. -/
def Ans.wrong {α β : Type} : Ans α → Ans β
  | .unknown => .unknown
  | _ => .error none

/-- What is known of the builtin procedures: `dom` are those with a meaning here, `ap` is their result, `prints` is what they print when there is one. -/
structure Builtins where
  dom : Name → Bool
  ap : Name → List Val → Ret Val
  prints : Name → List Val → List Event

def Datum.toVal : Datum → Val
  | .nil => .nil
  | .bool b => .bool b
  | .num n => .num n
  | .chr c => .chr c
  | .str s => .str s
  | .sym x => .sym x
  | .pair a d => .pair a.toVal d.toVal

def Const.toVal : Const → Val
  | .bool b => .bool b
  | .num n => .num n
  | .chr c => .chr c
  | .str s => .str s

/-- Only `#f` is false. -/
def Val.isTrue : Val → Bool
  | .bool false => false
  | _ => true

/-- A list of values. -/
def Val.list : List Val → Val
  | [] => .nil
  | v :: vs => .pair v (Val.list vs)

/-- The content of a variable. -/
def look (ρ : Env) (st : Store) (x : Name) : Option Val :=
  match ρ.lookup x with
  | some l => st.cells[l]?
  | none => st.globals.lookup x

/-- Replace the content of a global variable, or make a new one. -/
def setGlobal (x : Name) (v : Val) : List (Name × Val) → List (Name × Val)
  | [] => [(x, v)]
  | (y, w) :: gs => if y = x then (y, v) :: gs else (y, w) :: setGlobal x v gs

/-- Assignment to a variable; assigning to an unbound variable, or to one that is not defined yet, has no meaning. -/
def assign (ρ : Env) (st : Store) (x : Name) (v : Val) : Ans Store :=
  match ρ.lookup x with
  | some l =>
    match st.cells[l]? with
    | none | some .unassigned => .unknown
    | some _ => .val { st with cells := st.cells.set l v }
  | none =>
    match st.globals.lookup x with
    | some _ => .val { st with globals := setGlobal x v st.globals }
    | none => .unknown

/-- A definition in a body: the location of the variable gets its value. -/
def init (ρ : Env) (st : Store) (x : Name) (v : Val) : Ans Store :=
  match ρ.lookup x with
  | some l => .val { st with cells := st.cells.set l v }
  | none => .unknown

/-- The variables a body defines. -/
def defs : List Exp → List Name
  | .define x _ :: es => x :: defs es
  | _ => []

/-- Fresh locations for the variables `xs`, with the contents `vs`. -/
def alloc (xs : List Name) (vs : List Val) (ρ : Env) (st : Store) : Env × Store :=
  (xs.zip (List.range' st.cells.length xs.length) ++ ρ, { st with cells := st.cells ++ vs })

/-- Fresh locations for the variables `xs`, with the contents `vs`, and for the variables defined in the body. -/
def enter (xs : List Name) (vs : List Val) (body : List Exp) (ρ : Env) (st : Store) : Env × Store :=
  alloc (xs ++ defs body) (vs ++ (defs body).map fun _ => .unassigned) ρ st

/-- The datum a key of `case` can be equal to; strings, lists and procedures are left open. -/
def Val.key : Val → Option Datum
  | .nil => some .nil
  | .bool b => some (.bool b)
  | .num n => some (.num n)
  | .chr c => some (.chr c)
  | .sym x => some (.sym x)
  | _ => none

/-- The elements of a list. -/
def Val.items : Val → Option (List Val)
  | .nil => some []
  | .pair a d =>
    match d.items with
    | some vs => some (a :: vs)
    | none => none
  | _ => none

/-- The arguments of the calls made by `map` and `for-each`: the first elements of all lists, then the second elements, and so on.  The lists must have the same
length. -/
def rowsOf : List Val → Option (List (List Val))
  | [] => none
  | [v] =>
    match v.items with
    | some xs => some (xs.map fun x => [x])
    | none => none
  | v :: vs =>
    match v.items, rowsOf vs with
    | some xs, some rs => if xs.length = rs.length then some (List.zipWith List.cons xs rs) else none
    | _, _ => none

/-- Is the value a procedure with a meaning here? -/
def isProc (B : Builtins) : Val → Bool
  | .prim f => B.dom f
  | .clo _ _ _ _ => true
  | _ => false

/-- Is the value a procedure with this number of parameters, written in Scheme? -/
def takes (k : Nat) : Val → Bool
  | .clo ps none _ _ => decide (ps.length = k)
  | _ => false

/-- Is one of the values the empty list? -/
def hasNil : List Val → Bool
  | [] => false
  | .nil :: _ => true
  | _ :: vs => hasNil vs

/-- Is the name not bound? -/
def fresh (ρ : Env) (st : Store) (x : Name) : Bool := (ρ.lookup x).isNone && (st.globals.lookup x).isNone

/-- The variables that have a step, with the steps. -/
def stepsOf : List Name → List (List Exp) → List (Name × Exp)
  | x :: xs, [e] :: ss => (x, e) :: stepsOf xs ss
  | _ :: xs, _ :: ss => stepsOf xs ss
  | _, _ => []

/-- Assign values to variables. -/
def assigns (ρ : Env) (st : Store) : List Name → List Val → Ans Store
  | x :: xs, v :: vs => (assign ρ st x v).bind fun st => assigns ρ st xs vs
  | _, _ => .val st

/-- Does a call of the value have a meaning here?  Not for symbols, lists and unknown builtins. -/
def callable (B : Builtins) : Val → Bool
  | .prim f => B.dom f
  | .sym _ | .pair _ _ | .undefined | .unassigned => false
  | _ => true

/-- Is a call of the value with this number of arguments an error that is noticed before all arguments are evaluated?  Too many arguments, or not a procedure; a call
of a datum without arguments has no meaning here. -/
def misfit (k : Nat) : Val → Bool
  | .clo ps none _ _ => decide (ps.length < k)
  | .nil | .bool _ | .num _ | .chr _ | .str _ => decide (0 < k)
  | .unspecified => true
  | _ => false

mutual

/-- The value of an expression. -/
def eval (B : Builtins) : Nat → Env → Exp → Store → Ans (Val × Store)
  | 0, _, _, _ => .unknown
  | n + 1, ρ, e, st =>
    match e with
    | .const c => .val (c.toVal, st)
    | .quote d => .val (d.toVal, st)
    | .var x =>
      match look ρ st x with
      | some .undefined | some .unassigned => .unknown
      | some v => .val (v, st)
      | none => .error (some st)
    | .lam ps rest body => .val (.clo ps rest body ρ, st)
    | .app f args =>
      (eval B n ρ f st).bind fun (vf, st) =>
      if callable B vf then
        if misfit args.length vf then (evalList B n ρ args st).wrong
        else (evalList B n ρ args st).bind fun (vs, st) => apply B n vf vs st
      else .unknown
    | .ite c a b =>
      (eval B n ρ c st).bind fun (v, st) => if v.isTrue then eval B n ρ a st else eval B n ρ b st
    | .ite1 c a =>
      (eval B n ρ c st).bind fun (v, st) => if v.isTrue then eval B n ρ a st else .val (.unspecified, st)
    | .set x e =>
      (eval B n ρ e st).bind fun (v, st) => (assign ρ st x v).bind fun st => .val (.unspecified, st)
    | .begin es => evalBody B n ρ es st
    | .let_ xs es body => eval B n ρ (.app (.lam xs none body) es) st
    | .namedLet f xs es body =>
      (evalList B n ρ es st).bind fun (vs, st) =>
      let loop : Val := .clo xs none [body] ((f, st.cells.length) :: ρ)
      apply B n loop vs { st with cells := st.cells ++ [loop] }
    | .letStar [] _ body => eval B n ρ (.let_ [] [] body) st
    | .letStar [x] es body => eval B n ρ (.let_ [x] (es.take 1) body) st
    | .letStar (x :: xs) es body => eval B n ρ (.let_ [x] (es.take 1) [.letStar xs (es.drop 1) body]) st
    | .letrec xs es body =>
      let (ρ', st) := enter xs (xs.map fun _ => .undefined) body ρ st
      (evalInits B n ρ' xs es st).bind fun (_, st) => evalBody B n ρ' body st
    | .and es => evalAnd B n ρ es st
    | .or es => evalOr B n ρ es st
    | .cond ts bs els => evalCond B n ρ ts bs els st
    | .case k ds bs els => (eval B n ρ k st).bind fun (v, st) =>
      match v.key with
      | some d => evalCase B n ρ d ds bs els st
      | none => .unknown
    | .loop xs es ss t rs bs =>
      if xs.all (fresh ρ st) then
        (evalList B n ρ es st).bind fun (vs, st) =>
        let (ρ', st) := alloc xs vs ρ st
        evalLoop B n ρ' (stepsOf xs ss) t rs bs st
      else .unknown
    | .map f ls =>
      (eval B n ρ f st).bind fun (vf, st) =>
      if isProc B vf then
        (evalList B n ρ ls st).vague.bind fun (vs, st) =>
        match rowsOf vs with
        | some rows => (applyAll B n vf rows st).bind fun (ws, st) => .val (Val.list ws, st)
        | none => .unknown
      else .unknown
    | .forEach f ls =>
      (eval B n ρ f st).bind fun (vf, st) =>
      if takes ls.length vf then
        (evalList B n ρ ls st).vague.bind fun (vs, st) =>
        match rowsOf vs with
        | some rows => if rows.any hasNil then .unknown else (applyAll B n vf rows st).bind fun (_, st) => .val (.unspecified, st)
        | none => .unknown
      else .unknown
    | .apply f l =>
      (eval B n ρ f st).bind fun (vf, st) =>
      if isProc B vf then
        (eval B n ρ l st).bind fun (v, st) =>
        match v.items with
        | some vs => apply B n vf vs st
        | none => .unknown
      else .unknown
    | .quasi t => evalTemplate B n ρ t st
    | .define x e => (eval B n ρ e st).bind fun (v, st) => (init ρ st x v).bind fun st => .val (.unspecified, st)

/-- The values of expressions, from left to right. -/
def evalList (B : Builtins) : Nat → Env → List Exp → Store → Ans (List Val × Store)
  | 0, _, _, _ => .unknown
  | _ + 1, _, [], st => .val ([], st)
  | n + 1, ρ, e :: es, st =>
    (eval B n ρ e st).bind fun (v, st) => (evalList B n ρ es st).bind fun (vs, st) => .val (v :: vs, st)

/-- The value of the last of a sequence of expressions. -/
def evalBody (B : Builtins) : Nat → Env → List Exp → Store → Ans (Val × Store)
  | 0, _, _, _ => .unknown
  | _ + 1, _, [], _ => .unknown
  | n + 1, ρ, [e], st => eval B n ρ e st
  | n + 1, ρ, e :: es, st => (eval B n ρ e st).bind fun (_, st) => evalBody B n ρ es st

/-- `and`: the first false value, else the last value. -/
def evalAnd (B : Builtins) : Nat → Env → List Exp → Store → Ans (Val × Store)
  | 0, _, _, _ => .unknown
  | _ + 1, _, [], st => .val (.bool true, st)
  | n + 1, ρ, [e], st => eval B n ρ e st
  | n + 1, ρ, e :: es, st => (eval B n ρ e st).bind fun (v, st) => if v.isTrue then evalAnd B n ρ es st else .val (v, st)

/-- `or`: the first true value, else the last value. -/
def evalOr (B : Builtins) : Nat → Env → List Exp → Store → Ans (Val × Store)
  | 0, _, _, _ => .unknown
  | _ + 1, _, [], st => .val (.bool false, st)
  | n + 1, ρ, [e], st => eval B n ρ e st
  | n + 1, ρ, e :: es, st => (eval B n ρ e st).bind fun (v, st) => if v.isTrue then .val (v, st) else evalOr B n ρ es st

/-- `cond`: the body of the first clause with a true test, else the last clause. -/
def evalCond (B : Builtins) : Nat → Env → List Exp → List (List Exp) → List Exp → Store → Ans (Val × Store)
  | 0, _, _, _, _, _ => .unknown
  | _ + 1, _, [], _, [], st => .val (.unspecified, st)
  | n + 1, ρ, [], _, els, st => evalBody B n ρ els st
  | n + 1, ρ, t :: ts, b :: bs, els, st =>
    (eval B n ρ t st).bind fun (v, st) => if v.isTrue then evalBody B n ρ b st else evalCond B n ρ ts bs els st
  | _ + 1, _, _ :: _, [], _, _ => .unknown

/-- `case`: the body of the first clause that has the datum, else the last clause. -/
def evalCase (B : Builtins) : Nat → Env → Datum → List (List Datum) → List (List Exp) → List Exp → Store → Ans (Val × Store)
  | 0, _, _, _, _, _, _ => .unknown
  | n + 1, ρ, _, [], _, els, st => evalBody B n ρ els st
  | n + 1, ρ, d, ds :: dss, b :: bs, els, st => if d ∈ ds then evalBody B n ρ b st else evalCase B n ρ d dss bs els st
  | _ + 1, _, _, _ :: _, [], _, _ => .unknown

/-- `do`: while the test is false, the body is evaluated, then all steps, and the variables are assigned the values of their steps.  A test that is neither `#t` nor
`#f` has no meaning here.  The variables keep their locations: R5RS gives them new ones in each turn, which can be seen only by procedures that are made in the
loop and refer to the variables.  A variable that is already bound outside has no meaning here (see `loop` in `eval`). -/
def evalLoop (B : Builtins) : Nat → Env → List (Name × Exp) → Exp → List Exp → List Exp → Store → Ans (Val × Store)
  | 0, _, _, _, _, _, _ => .unknown
  | n + 1, ρ, ss, t, rs, bs, st =>
    (eval B n ρ t st).bind fun (v, st) =>
    match v with
    | .bool true => if rs = [] then .val (.unspecified, st) else evalBody B n ρ rs st
    | .bool false =>
      (evalList B n ρ bs st).bind fun (_, st) =>
      (evalList B n ρ (ss.map Prod.snd) st).bind fun (vs, st) =>
      (assigns ρ st (ss.map Prod.fst) vs).bind fun st => evalLoop B n ρ ss t rs bs st
    | _ => .unknown

/-- `quasiquote`: the template with its unquoted parts replaced by their values, and the spliced parts by the elements of theirs, from left to right. -/
def evalTemplate (B : Builtins) : Nat → Env → Template → Store → Ans (Val × Store)
  | 0, _, _, _ => .unknown
  | _ + 1, _, .datum d, st => .val (d.toVal, st)
  | n + 1, ρ, .unquote e, st => eval B n ρ e st
  | n + 1, ρ, .splice e t, st =>
    (eval B n ρ e st).bind fun (v, st) =>
    match v.items with
    | some vs => (evalTemplate B n ρ t st).bind fun (w, st) => .val (vs.foldr Val.pair w, st)
    | none => .unknown
  | n + 1, ρ, .pair a d, st =>
    (evalTemplate B n ρ a st).bind fun (v, st) => (evalTemplate B n ρ d st).bind fun (w, st) => .val (.pair v w, st)

/-- A procedure applied to lists of arguments, one after the other. -/
def applyAll (B : Builtins) : Nat → Val → List (List Val) → Store → Ans (List Val × Store)
  | 0, _, _, _ => .unknown
  | _ + 1, _, [], st => .val ([], st)
  | n + 1, f, r :: rs, st =>
    (apply B n f r st).bind fun (v, st) => (applyAll B n f rs st).bind fun (vs, st) => .val (v :: vs, st)

/-- The initialisations of `letrec`: each variable is assigned the value of its expression. -/
def evalInits (B : Builtins) : Nat → Env → List Name → List Exp → Store → Ans (Unit × Store)
  | 0, _, _, _, _ => .unknown
  | _ + 1, _, [], [], st => .val ((), st)
  | n + 1, ρ, x :: xs, e :: es, st =>
    (eval B n ρ e st).bind fun (v, st) => (assign ρ st x v).bind fun st => evalInits B n ρ xs es st
  | _ + 1, _, _, _, _ => .unknown

/-- A procedure applied to values.  Too few arguments for a procedure with a rest parameter have no meaning here. -/
def apply (B : Builtins) : Nat → Val → List Val → Store → Ans (Val × Store)
  | 0, _, _, _ => .unknown
  | n + 1, f, vs, st =>
    match f with
    | .clo ps none body ρ =>
      if vs.length = ps.length then
        let (ρ', st) := enter ps vs body ρ st
        evalBody B n ρ' body st
      else .error (some st)
    | .clo ps (some r) body ρ =>
      if ps.length ≤ vs.length then
        let (ρ', st) := enter (ps ++ [r]) (vs.take ps.length ++ [Val.list (vs.drop ps.length)]) body ρ st
        evalBody B n ρ' body st
      else .unknown
    | .prim p =>
      if B.dom p then
        match B.ap p vs with
        | .val v => afterPrint v st (B.prints p vs)
        | .error => .error (some st)
        | .unknown => .unknown
      else .unknown
    | _ => .unknown

end

/-- Top-level forms. -/
inductive Form
  | exp (e : Exp)
  /-- `(define x e)` -/
  | define (x : Name) (e : Exp)
  /-- `(define (f x ... . r) body ...)` -/
  | defun (f : Name) (ps : List Name) (rest : Option Name) (body : List Exp)

/-- A top-level form. -/
def evalForm (B : Builtins) (n : Nat) (st : Store) : Form → Ans (Val × Store)
  | .exp e => eval B n [] e st
  | .define x e => (eval B n [] e st).bind fun (v, st) => .val (.unspecified, { st with globals := setGlobal x v st.globals })
  | .defun f ps rest body => .val (.unspecified, { st with globals := setGlobal f (.clo ps rest body []) st.globals })

/-- A program: the value of its last form. -/
def evalProgram (B : Builtins) (n : Nat) : Store → List Form → Ans (Val × Store)
  | _, [] => .unknown
  | st, [f] => evalForm B n st f
  | st, f :: fs => (evalForm B n st f).bind fun (_, st) => evalProgram B n st fs

/-- The initial store: the global variables hold the builtins, and `%load-path` the empty list. -/
def initial (names : List Name) : Store := ⟨[], (names.map fun x => (x, .prim x)) ++ [("%load-path", .nil)], []⟩

end Pscm.Ref

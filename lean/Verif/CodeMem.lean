import Verif.Basic
/-!
# Expressions in memory

The evaluator model (`Verif.Ev`) takes expressions as trees.  In the program an expression is a chain of `SCM_List` nodes in memory, and one case of
`eval_with_env` writes to it.  This model keeps the nodes, for a fragment of the language: constants, variables, `quote`, `if`, `lambda`, calls.
-/
namespace Pscm.Code

/-- Values: `list p` is the pair object whose chain begins at node `p`; a procedure has its parameter names, the chain of its body and its environment. -/
inductive Val
  | num (n : Int)
  | bool (b : Bool)
  | sym (x : String)
  | nil
  | func (f : String)
  | proc (params : List String) (body : Option Nat) (env : Nat)
  | list (p : Nat)
  deriving DecidableEq, Repr

/-- `SCM_List` (src/c/pscm_types.h): data and next. -/
structure Node where
  data : Val
  next : Option Nat
  deriving DecidableEq, Repr

/-- The memory: nodes, and environments (bindings and parent). -/
structure Mem where
  nodes : List Node
  frames : List (List (String × Val) × Option Nat)
  deriving DecidableEq, Repr

/-- An evaluation returns a value or raises an error. -/
inductive Out
  | ok (v : Val)
  | err
  deriving DecidableEq, Repr

/-- What the C function of a builtin does with its argument values: `none` for an error. -/
abbrev Builtins := String → List Val → Mem → Option (Val × Mem)

/-- Variable lookup along the environments (the parents are older; src/c/environment.cc). -/
def lookup : Nat → Mem → Nat → String → Option Val
  | 0, _, _, _ => none
  | n + 1, m, e, x =>
    match m.frames[e]? with
    | none => none
    | some (bs, parent) =>
      match bs.lookup x with
      | some v => some v
      | none => match parent with
        | none => none
        | some p => lookup n m p x

/-- `make_list`: a new node. -/
def alloc (m : Mem) (nd : Node) : Nat × Mem := (m.nodes.length, { m with nodes := m.nodes ++ [nd] })

/-- A new chain with the given data. -/
def allocList : List Val → Mem → Option Nat × Mem
  | [], m => (none, m)
  | v :: vs, m =>
    let r := allocList vs m
    let q := alloc r.2 ⟨v, r.1⟩
    (some q.1, q.2)

/-- `l->next = …`. -/
def setNext (m : Mem) (p : Nat) (next : Option Nat) : Mem := { m with nodes := m.nodes.modify p fun nd => { nd with next := next } }

/-- The data of a chain, at most `n`. -/
def chain : Nat → Mem → Option Nat → List Val
  | 0, _, _ => []
  | _ + 1, _, none => []
  | n + 1, m, some p => match m.nodes[p]? with
    | none => []
    | some nd => nd.data :: chain n m nd.next

/-- The symbols of a parameter list. -/
def names : List Val → List String
  | .sym x :: vs => x :: names vs
  | _ => []

mutual
/-- `eval_with_env` (src/c/eval.cc:257-700) for the fragment.  Out of fuel (and a dangling node) is `none`. -/
def eval (F : Builtins) : Nat → Nat → Val → Mem → Option (Out × Mem)
  | 0, _, _, _ => none
  | n + 1, env, .sym x, m => some ((match lookup m.frames.length m env x with | some v => .ok v | none => .err), m)
  | n + 1, env, .list p, m =>
    match m.nodes[p]? with
    | none => none
    | some nd =>
      match nd.data with
      | .sym "quote" => match chain 2 m nd.next with
        | v :: _ => some (.ok v, m)
        | [] => some (.err, m)
      | .sym "if" => match chain 3 m nd.next with
        | c :: branches =>
          match eval F n env c m with
          | none => none
          | some (.err, m) => some (.err, m)
          | some (.ok v, m) => match (if v = .bool false then branches.drop 1 else branches) with
            | b :: _ => eval F n env b m
            | [] => some (.ok .nil, m)
        | [] => some (.err, m)
      | .sym "lambda" => match nd.next with
        | none => some (.err, m)
        | some q => match m.nodes[q]? with
          | none => none
          | some pn => some (.ok (.proc (match pn.data with | .list a => names (chain m.nodes.length m (some a)) | _ => []) pn.next env), m)
      | .sym x => match lookup m.frames.length m env x with
        | none => some (.err, m)
        | some v => let r := alloc m ⟨v, nd.next⟩
          eval F n env (.list r.1) r.2
      | .proc ps body penv =>
        match evalArgs F n env nd.next m with
        | none => none
        | some (none, m) => some (.err, m)
        | some (some vs, m) =>
          if vs.length = ps.length then
            evalSeq F n m.frames.length body { m with frames := m.frames ++ [(ps.zip vs, some penv)] }
          else some (.err, m)
      | .func f =>
        match evalArgs F n env nd.next m with
        | none => none
        | some (none, m) => some (.err, m)
        | some (some vs, m) =>
          let r := allocList vs m
          let m := setNext r.2 p r.1
          match F f vs m with
          | some (v, m) => some (.ok v, m)
          | none => some (.err, m)
      | .list q =>
        match eval F n env (.list q) m with
        | none => none
        | some (.err, m) => some (.err, m)
        | some (.ok v, m) => match m.nodes[p]? with
          | none => none
          | some nd => let r := alloc m ⟨v, nd.next⟩
            eval F n env (.list r.1) r.2
      | v => if nd.next = none then some (.ok v, m) else some (.err, m)
  | _ + 1, _, v, m => some (.ok v, m)

/-- `eval_list_with_env` (src/c/eval.cc:20-31): the values, or none after an error.  The next node is read after the evaluation. -/
def evalArgs (F : Builtins) : Nat → Nat → Option Nat → Mem → Option (Option (List Val) × Mem)
  | 0, _, _, _ => none
  | _ + 1, _, none, m => some (some [], m)
  | n + 1, env, some p, m =>
    match m.nodes[p]? with
    | none => none
    | some nd =>
      match eval F n env nd.data m with
      | none => none
      | some (.err, m) => some (none, m)
      | some (.ok v, m) => match m.nodes[p]? with
        | none => none
        | some nd => match evalArgs F n env nd.next m with
          | none => none
          | some (none, m) => some (none, m)
          | some (some vs, m) => some (some (v :: vs), m)

/-- `eval_with_list` (src/c/eval.cc:10-18). -/
def evalSeq (F : Builtins) : Nat → Nat → Option Nat → Mem → Option (Out × Mem)
  | 0, _, _, _ => none
  | _ + 1, _, none, m => some (.ok .nil, m)
  | n + 1, env, some p, m =>
    match m.nodes[p]? with
    | none => none
    | some nd =>
      match eval F n env nd.data m with
      | none => none
      | some (.err, m) => some (.err, m)
      | some (.ok v, m) => match m.nodes[p]? with
        | none => none
        | some nd => match nd.next with
          | none => some (.ok v, m)
          | some q => evalSeq F n env (some q) m
end

end Pscm.Code

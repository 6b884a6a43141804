import Verif.RefTop
/-!
# Programs with guarded evaluations: the semantics

`(catch #t (lambda () body ...) (lambda args handler))` calls the thunk; if that is an error, the handler expression is evaluated in the store that the error has left.
What the handler is called with is not part of the semantics: `args` is a variable without a known value.
-/
namespace Pscm.Ref
open Pscm.Ev (V listOf)

/-- A form of a program, or a guarded evaluation at top level. -/
inductive Item
  | form (f : Form)
  | guarded (body : List Exp) (args : Name) (handler : Exp)

/-- As the list the reader makes of it. -/
def Item.toV : Item → V
  | .form f => f.toV
  | .guarded body a h => listOf [.sym "catch", .bool true, (Exp.lam [] none body).toV, (Exp.lam [] (some a) [h]).toV]

/-- The item is part of the language. -/
def Item.Ok (A : Name → Int → Prop) : Item → Prop
  | .form f => f.Ok A
  | .guarded body a h => (Exp.lam [] none body).Ok ∧ IsVar a ∧ h.Ok

/-- The meaning of an item, while `catch` is the builtin. -/
def evalItem (B : Builtins) (n : Nat) (st : Store) : Item → Ans (Val × Store)
  | .form f => evalForm B n st f
  | .guarded body a h =>
    match st.globals.lookup "catch" with
    | some (.prim "catch") =>
      match eval B n [] (.app (.lam [] none body) []) st with
      | .val q => .val q
      | .unknown => .unknown
      | .error none => .unknown
      | .error (some st') =>
        match eval B n (alloc [a] [.undefined] [] st').1 h (alloc [a] [.undefined] [] st').2 with
        | .val q => .val q
        | .unknown => .unknown
        | .error _ => .error none
    | _ => .unknown

/-- The meaning of a program: the value of its last item. -/
def evalItems (B : Builtins) (n : Nat) : Store → List Item → Ans (Val × Store)
  | _, [] => .unknown
  | st, [i] => evalItem B n st i
  | st, i :: is => (evalItem B n st i).bind fun (_, st) => evalItems B n st is

end Pscm.Ref

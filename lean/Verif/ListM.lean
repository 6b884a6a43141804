import Verif.Eq
/-!
# Lists — model of `src/c/list.cc`, `scm_c_is_list` of `src/c/predicate.cc`, `car`/`cdr`/`cadr` of `src/c/pscm.h`

Every loop takes a `fuel` argument, one unit per iteration; `oof` means the C++ loop is still running.
`is_nil(wrap(x))` for a non-null `x` is always false (`wrap` makes a LIST record), so the tests
`!x || is_nil(wrap(x))` of the code are modelled as `x` being null; the records these tests allocate are garbage
immediately and are not modelled.
-/
namespace Pscm

/-- `car`, src/c/pscm.h:590-599. -/
def car (o : Obj) : M Obj :=
  match o.v with
  | .list a => do let n ← getNode a; pure n.data
  | _ => M.throw .typeError

/-- `cdr`, src/c/pscm.h:601-624. -/
def cdr (o : Obj) : M Obj :=
  match o.v with
  | .list a => do
    let n ← getNode a
    match n.next with
    | none => pure Obj.nil
    | some b => do
      let m ← getNode b
      if m.dotted then pure m.data else newObj (.list b)
  | _ => M.throw .typeError

/-- `cadr`, src/c/pscm.h:630-644: the data of the second node, whatever its dotted flag. -/
def cadr (o : Obj) : M Obj :=
  match o.v with
  | .list a => do
    let n ← getNode a
    match n.next with
    | none => M.throw .typeError
    | some b => do let m ← getNode b; pure m.data
  | _ => M.throw .typeError

/-- `cddr`, src/c/pscm.h:650-652. -/
def cddr (o : Obj) : M Obj := do cdr (← cdr o)

/-- `caddr`, src/c/pscm.h:654-661. -/
def caddr (o : Obj) : M Obj := do car (← cdr (← cdr o))

/-- The loop `while (last->next) last = last->next;` (src/c/list.cc:76-78, 104-106, 135-137, 148-150):
address of the last node. -/
def lastNode : Nat → Addr → M Addr
  | 0, _ => M.lift .oof
  | fuel + 1, a => do
    let n ← getNode a
    match n.next with
    | none => pure a
    | some b => lastNode fuel b

/-- `scm_cons`, src/c/list.cc:68-90. The walk to the end of the cdr has no effect, but it must terminate. -/
def cons (fuel : Nat) (x d : Obj) : M Obj := do
  let l ← makeList x
  match d.v with
  | .list a => do
    setNode l ⟨x, some a, false⟩
    let _ ← lastNode fuel a
    newObj (.list l)
  | .nil => newObj (.list l)
  | _ => do
    let b ← allocNode ⟨d, none, true⟩
    setNode l ⟨x, some b, false⟩
    newObj (.list l)

/-- A list under construction with the `dummy`/`tail` idiom: `head = dummy.next`, `tail` the last node
(`none`: still `&dummy`). -/
structure Builder where
  head : Option Addr
  tail : Option Addr
  deriving DecidableEq, Repr

def Builder.empty : Builder := ⟨none, none⟩

/-- `node = make_list(d); tail->next = node; tail = node;` (src/c/list.cc:51-53, 168-170, 236-238, …). -/
def Builder.push (b : Builder) (d : Obj) : M Builder := do
  let a ← makeList d
  match b.tail with
  | none => pure ⟨some a, some a⟩
  | some t => do
    let n ← getNode t
    setNode t { n with next := some a }
    pure ⟨b.head, some a⟩

/-- Push the data of all the nodes of a chain (src/c/list.cc:175-180). -/
def Builder.pushChain : Nat → Builder → Option Addr → M Builder
  | 0, _, _ => M.lift .oof
  | _ + 1, b, none => pure b
  | fuel + 1, b, some a => do
    let n ← getNode a
    let b ← b.push n.data
    Builder.pushChain fuel b n.next

/-- Push every argument of a C++ argument list. -/
def Builder.pushAll (b : Builder) : List Obj → M Builder
  | [] => pure b
  | x :: xs => do
    let b ← b.push x
    b.pushAll xs

/-- `scm_list`, src/c/list.cc:42-65. The argument list is the fresh list of evaluated arguments. -/
def list (args : List Obj) : M Obj := do
  let b ← Builder.empty.pushAll args
  wrapList b.head

/-- `_is_dotted_pair`, src/c/list.cc:98-108. -/
def isDottedPair (fuel : Nat) (a : Addr) : M Bool := do
  let n ← getNode a
  match n.next with
  | none => pure false
  | some _ => do
    let l ← lastNode fuel a
    let m ← getNode l
    pure m.dotted

/-- The main loop of `scm_append`, src/c/list.cc:159-189; `lastDotted` applies to the last argument only. -/
def appendArgs (fuel : Nat) (lastDotted : Bool) (b : Builder) : List Obj → M Builder
  | [] => pure b
  | x :: xs => do
    let b ← (match x.v with
      | .list a =>
        if xs.isEmpty && lastDotted then do
          let n ← getNode a
          b.push n.data
        else Builder.pushChain fuel b (some a)
      | .nil => pure b
      | _ => b.push x)
    appendArgs fuel lastDotted b xs

/-- The test on the last argument, src/c/list.cc:140-153: its final cdr if it is a dotted list. -/
def lastCdr (fuel : Nat) (x : Obj) : M (Option Obj) :=
  match x.v with
  | .list a => do
    let d ← isDottedPair fuel a
    if d then do
      let l ← lastNode fuel a
      let m ← getNode l
      pure (some m.data)
    else pure none
  | _ => pure none

/-- `scm_append`, src/c/list.cc:112-209. -/
def append (fuel : Nat) (args : List Obj) : M Obj :=
  match args with
  | [] => pure Obj.nil
  | [x] => pure x
  | x :: y :: rest =>
    if x.v = .nil ∧ rest = [] then pure y
    else do
      let lc ← lastCdr fuel ((y :: rest).getLast (by simp))
      let b ← appendArgs fuel lc.isSome Builder.empty args
      match lc with
      | some o => do
        let a ← allocNode ⟨o, none, true⟩
        match b.tail with
        | none => newObj (.list a)
        | some t => do
          let n ← getNode t
          setNode t { n with next := some a }
          wrapList b.head
      | none => wrapList b.head

/-- The conversion `(size_t)(int64_t)k`. -/
def toSize (k : Int) : Nat := (k % 2 ^ 64).toNat

/-- The copy loop of `list-head`, src/c/list.cc:235-241: returns the builder and the remaining count. -/
def listHeadLoop : Nat → Builder → Nat → Option Addr → M (Builder × Nat)
  | 0, _, _, _ => M.lift .oof
  | fuel + 1, b, count, cur =>
    match count, cur with
    | 0, _ => pure (b, 0)
    | c + 1, none => pure (b, c + 1)
    | c + 1, some a => do
      let n ← getNode a
      let b ← b.push n.data
      listHeadLoop fuel b c n.next

/-- `scm_c_list_head`, src/c/list.cc:212-252. -/
def listHead (fuel : Nat) (lst k : Obj) : M Obj :=
  match k.v with
  | .num n =>
    if toSize n = 0 then pure Obj.nil
    else match lst.v with
      | .list a => do
        let (b, rest) ← listHeadLoop fuel Builder.empty (toSize n) (some a)
        if 0 < rest then M.throw .evalError else wrapList b.head
      | _ => M.throw .evalError
  | _ => M.throw .evalError

/-- The loop of `list-tail`, src/c/list.cc:268-275. -/
def listTailLoop : Nat → Nat → Option Addr → M (Option Addr)
  | 0, _, _ => M.lift .oof
  | fuel + 1, count, cur =>
    match count, cur with
    | 0, c => pure c
    | _ + 1, none => M.throw .evalError
    | c + 1, some a => do
      let n ← getNode a
      listTailLoop fuel c n.next

/-- `scm_c_list_tail`, src/c/list.cc:255-281. -/
def listTail (fuel : Nat) (lst k : Obj) : M Obj :=
  match castList lst with
  | .ok start =>
    match k.v with
    | .num n => do wrapList (← listTailLoop fuel (toSize n) start)
    | _ => M.throw .evalError
  | _ => M.throw .evalError

/-- `scm_c_set_car`, src/c/list.cc:284-294. -/
def setCar (p x : Obj) : M Obj :=
  match p.v with
  | .list a => do
    let n ← getNode a
    setNode a { n with data := x }
    pure Obj.none
  | _ => M.throw .evalError

/-- `scm_c_set_cdr`, src/c/list.cc:297-315. -/
def setCdr (p x : Obj) : M Obj :=
  match p.v with
  | .list a => do
    let n ← getNode a
    match x.v with
    | .list b => do setNode a { n with next := some b }; pure Obj.none
    | .nil => do setNode a { n with next := none }; pure Obj.none
    | _ => do
      let b ← allocNode ⟨x, none, true⟩
      setNode a { n with next := some b }
      pure Obj.none
  | _ => M.throw .evalError

/-- The loop of `last-pair`, src/c/list.cc:331-352 (Floyd). -/
def lastPairLoop : Nat → Addr → Addr → M Obj
  | 0, _, _ => M.lift .oof
  | fuel + 1, tortoise, hare => do
    let n ← getNode hare
    match n.next with
    | none => newObj (.list tortoise)
    | some h1 => do
      let n1 ← getNode h1
      match n1.next with
      | none => newObj (.list h1)
      | some h2 => do
        let t ← getNode tortoise
        match t.next with
        | none => M.lift .ub
        | some t1 => if h2 = t1 then M.throw .evalError else lastPairLoop fuel t1 h2

/-- `scm_c_last_pair`, src/c/list.cc:318-353. -/
def lastPair (fuel : Nat) (lst : Obj) : M Obj :=
  match lst.v with
  | .nil => pure Obj.nil
  | .list a => lastPairLoop fuel a a
  | _ => M.throw .evalError

/-- The loop of `reverse`, src/c/list.cc:367-376. -/
def reverseLoop : Nat → Option Addr → Addr → M (Option Addr)
  | 0, _, _ => M.lift .oof
  | fuel + 1, result, cur => do
    let n ← getNode cur
    let a ← allocNode ⟨n.data, result, false⟩
    match n.next with
    | none => pure (some a)
    | some b => reverseLoop fuel (some a) b

/-- `scm_c_reverse`, src/c/list.cc:355-382. -/
def reverse (fuel : Nat) (lst : Obj) : M Obj :=
  match lst.v with
  | .nil => pure Obj.nil
  | .list a => do wrapList (← reverseLoop fuel none a)
  | _ => M.throw .evalError

/-- The loop of `list-ref`, src/c/list.cc:407-416; `i ≤ idx` throughout, so `i++` cannot overflow. -/
def listRefLoop : Nat → Int → Int → Addr → M Obj
  | 0, _, _, _ => M.lift .oof
  | fuel + 1, i, idx, cur => do
    let n ← getNode cur
    if i = idx then pure n.data
    else match n.next with
      | none => M.throw .evalError
      | some b => listRefLoop fuel (i + 1) idx b

/-- `scm_c_list_ref`, src/c/list.cc:384-420. -/
def listRef (fuel : Nat) (lst k : Obj) : M Obj :=
  match lst.v with
  | .nil => M.throw .evalError
  | .list a =>
    match k.v with
    | .num idx => if idx < 0 then M.throw .evalError else listRefLoop fuel 0 idx a
    | _ => M.throw .evalError
  | _ => M.throw .evalError

/-- A signed 32-bit `int` result: overflow is undefined behaviour. -/
def i32 (x : Int) : Res Int := if -(2:Int)^31 ≤ x ∧ x < (2:Int)^31 then .ok x else .ub

/-- The loop of `length`, src/c/list.cc:438-444; `count` is a C++ `int`. -/
def lengthLoop : Nat → Int → Addr → M Int
  | 0, _, _ => M.lift .oof
  | fuel + 1, count, cur => do
    let c ← M.lift (i32 (count + 1))
    let n ← getNode cur
    match n.next with
    | none => pure c
    | some b => lengthLoop fuel c b

/-- `scm_c_length`, src/c/list.cc:422-451. -/
def length (fuel : Nat) (lst : Obj) : M Obj :=
  match lst.v with
  | .nil => newObj (.num 0)
  | .list a => do
    let c ← lengthLoop fuel 0 a
    newObj (.num c)
  | _ => M.throw .evalError

/-- The common loop of `memq`, `memv`, `member`, src/c/list.cc:493-506, 525-534, 553-562. -/
def memLoop (test : Heap → Obj → Res Bool) : Nat → Addr → M Obj
  | 0, _ => M.lift .oof
  | fuel + 1, cur => do
    let n ← getNode cur
    let r ← M.read (fun h => test h n.data)
    if r then newObj (.list cur)
    else match n.next with
      | none => pure Obj.f
      | some b => memLoop test fuel b

/-- The common frame of `memq`, `memv`, `member`. -/
def memG (test : Heap → Obj → Res Bool) (fuel : Nat) (lst : Obj) : M Obj :=
  match lst.v with
  | .nil => pure Obj.f
  | .list a => memLoop test fuel a
  | _ => M.throw .evalError

section
variable (F : FArith)
/-- `scm_c_memq`, src/c/list.cc:482-510. -/
def memq (fuel : Nat) (x lst : Obj) : M Obj := memG (fun h y => eqP F h x y) fuel lst
/-- `scm_c_memv`, src/c/list.cc:514-538. -/
def memv (fuel : Nat) (x lst : Obj) : M Obj := memG (fun _ y => memvEqv F x y) fuel lst
/-- `scm_c_member`, src/c/list.cc:542-566. -/
def member (fuel : Nat) (x lst : Obj) : M Obj := memG (fun h y => legacyEq F h fuel x y) fuel lst
end

/-- The loop of `list?`, src/c/predicate.cc:97-114: `count` is compared before it is incremented. -/
def isListLoop : Nat → Nat → Addr → M Bool
  | 0, _, _ => M.lift .oof
  | fuel + 1, count, a =>
    if 10000 < count then pure false
    else do
      let n ← getNode a
      if n.dotted then pure false
      else match n.next with
        | none => pure true
        | some b => isListLoop fuel (count + 1) b

/-- `scm_c_is_list` (`list?`), src/c/predicate.cc:79-117. -/
def isListP (fuel : Nat) (o : Obj) : M Obj :=
  match o.v with
  | .nil => pure Obj.t
  | .list a => do let b ← isListLoop fuel 0 a; pure (Obj.ofBool b)
  | _ => pure Obj.f

end Pscm

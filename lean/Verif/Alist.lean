import Verif.ListM
/-!
# Association lists — model of `src/c/alist.cc`

The null checks `pair->data && …` are always true in the heaps considered (a node always has data).
-/
namespace Pscm

/-- `is_pair(l->data)` and then `pair->data` compared with the key: the test made on each element `e` of an alist
(src/c/alist.cc:56-61, 74-79, 112-114, 219-221, 255-257). Elements that are not pairs are skipped. -/
def entryTest (test : Heap → Obj → Res Bool) (e : Obj) : M Bool :=
  match e.v with
  | .list p => do
    let n ← getNode p
    M.read (fun h => test h n.data)
  | _ => pure false

/-- The search loop of `assq`, `assoc`, `assv`, src/c/alist.cc:55-63, 73-81, 254-262. -/
def assLoop (test : Heap → Obj → Res Bool) : Nat → Option Addr → M Obj
  | 0, _ => M.lift .oof
  | _ + 1, none => pure Obj.f
  | fuel + 1, some a => do
    let n ← getNode a
    let r ← entryTest test n.data
    if r then pure n.data else assLoop test fuel n.next

/-- Frame of `assq` and `assoc`: the empty alist gives `#f`, otherwise the alist is cast to a list. -/
def assG (test : Heap → Obj → Res Bool) (fuel : Nat) (alist : Obj) : M Obj :=
  match alist.v with
  | .nil => pure Obj.f
  | .list a => assLoop test fuel (some a)
  | _ => M.throw .typeError

section
variable (F : FArith)

/-- `scm_c_assq`, src/c/alist.cc:50-65. -/
def assq (fuel : Nat) (key alist : Obj) : M Obj := assG (fun _ k => .ok (assqEq key k)) fuel alist

/-- `scm_c_assoc`, src/c/alist.cc:68-83. -/
def assoc (fuel : Nat) (key alist : Obj) : M Obj := assG (fun h k => legacyEq F h fuel key k) fuel alist

/-- `scm_c_assv`, src/c/alist.cc:245-264: like `assoc`, but a non-list alist fails an assertion. -/
def assv (fuel : Nat) (key alist : Obj) : M Obj :=
  match alist.v with
  | .nil => pure Obj.f
  | .list a => assLoop (fun h k => legacyEq F h fuel key k) fuel (some a)
  | _ => M.lift .abort

/-- `scm_c_assoc_ref`, src/c/alist.cc:86-97: the *data of the second node* of the entry. -/
def assocRef (fuel : Nat) (alist key : Obj) : M Obj := do
  let pair ← assoc F fuel key alist
  match pair.v with
  | .nil => pure Obj.f
  | .bool false => pure Obj.f
  | .list p => do
    let n ← getNode p
    match n.next with
    | some b => do let m ← getNode b; pure m.data
    | none => pure Obj.f
  | _ => M.throw .typeError

/-- `scm_c_acons`, src/c/alist.cc:39-47. -/
def acons (fuel : Nat) (key value alist : Obj) : M Obj := do
  let pair ← cons fuel key value
  match alist.v with
  | .nil => list [pair]
  | _ => cons fuel pair alist

/-- The loop of `assoc-set!`/`assq-set!`, src/c/alist.cc:111-134, 165-188: copies the list, replacing every matching
entry by a new pair. -/
def setLoop (test : Heap → Obj → Res Bool) (key value : Obj) : Nat → Builder → Bool → Option Addr → M (Builder × Bool)
  | 0, _, _, _ => M.lift .oof
  | _ + 1, b, found, none => pure (b, found)
  | fuel + 1, b, found, some a => do
    let n ← getNode a
    let r ← entryTest test n.data
    if r then do
      let p ← cons fuel key value
      let b ← b.push p
      setLoop test key value fuel b true n.next
    else do
      let b ← b.push n.data
      setLoop test key value fuel b found n.next

/-- Body of `assoc-set!`/`assq-set!`, src/c/alist.cc:100-151, 154-205. -/
def assSetG (test : Heap → Obj → Res Bool) (fuel : Nat) (alist key value : Obj) : M Obj :=
  match alist.v with
  | .nil => acons fuel key value Obj.nil
  | .list a => do
    let (b, found) ← setLoop test key value fuel Builder.empty false (some a)
    if found then wrapList b.head
    else do
      let p ← cons fuel key value
      let x ← makeList p
      match b.head with
      | some hd => do setNode x ⟨p, some hd, false⟩; newObj (.list x)
      | none => list [p]
  | _ => M.throw .typeError

/-- `scm_c_assoc_set` (`assoc-set!`), src/c/alist.cc:100-151. -/
def assocSet (fuel : Nat) (alist key value : Obj) : M Obj :=
  assSetG (fun h k => legacyEq F h fuel key k) fuel alist key value

/-- `scm_c_assq_set` (`assq-set!`), src/c/alist.cc:154-205. -/
def assqSet (fuel : Nat) (alist key value : Obj) : M Obj :=
  assSetG (fun _ k => .ok (assqEq key k)) fuel alist key value

/-- The loop of `assoc-remove!`, src/c/alist.cc:218-237: copies the list without the first matching entry. After the
removal no comparison is made any more. -/
def removeLoop (test : Heap → Obj → Res Bool) : Nat → Builder → Bool → Option Addr → M Builder
  | 0, _, _, _ => M.lift .oof
  | _ + 1, b, _, none => pure b
  | fuel + 1, b, removed, some a => do
    let n ← getNode a
    let r ← if removed then pure false else entryTest test n.data
    if r then removeLoop test fuel b true n.next
    else do
      let b ← b.push n.data
      removeLoop test fuel b removed n.next

/-- `scm_c_assoc_remove` (`assoc-remove!`), src/c/alist.cc:208-243. -/
def assocRemove (fuel : Nat) (alist key : Obj) : M Obj :=
  match alist.v with
  | .nil => pure Obj.nil
  | .list a => do
    let b ← removeLoop (fun h k => legacyEq F h fuel key k) fuel Builder.empty false (some a)
    wrapList b.head
  | _ => M.throw .typeError

end
end Pscm

import Verif.EvModProps
/-!
# Loading files and modules: specification vocabulary and lemmas

`Registered ms name m`: the name denotes module `m`.  `Resolves P xs s o s'`: what becomes of a request for the module `(x ...)`.
-/
namespace Pscm.Ev
variable {σ : Type}
open EM (stop getSt modSt)

/-! ## Specification -/

/-- The name denotes module `m`: the oldest module that carries it (the interface of a module carries the name too and is younger). -/
def Registered (ms : List Modl) (name : V) (m : Nat) : Prop :=
  (∃ md : Modl, ms[m]? = some md ∧ md.name = name) ∧ ∀ (i : Nat) (md : Modl), i < m → ms[i]? = some md → md.name ≠ name

/-- The name `(x ...)` as a datum. -/
def nameOf (xs : List Name) : V := listOf (xs.map V.sym)

/-- The file of the module `(a b c)` is `a/b/c.scm`. -/
def fileName (xs : List Name) : String := "/".intercalate xs ++ ".scm"

/-- A file in a directory; the empty directory adds nothing, and there is exactly one slash between. -/
def joinPath (dir file : String) : String :=
  match dir.toList.getLast? with
  | Option.none => dir ++ file
  | some c => if c = '/' then dir ++ file else dir ++ "/" ++ file

/-- Where the file of the module `(x ...)` is looked for: in the directories of `%load-path`, then in the current directory. -/
def SearchPaths (s : St σ) (xs : List Name) (paths : List String) : Prop :=
  ∃ dirs : List String, (ownValue s.mods "%load-path" s.root = some (listOf (dirs.map V.str)) ∨
      ownValue s.mods "%load-path" s.root = Option.none ∧ dirs = []) ∧
    paths = dirs.map (fun d => joinPath d (fileName xs)) ++ [fileName xs]

/-- The first of the paths at which there is a file. -/
def FirstFile (P : Prims σ) (x : σ) (paths : List String) (path : String) : Prop :=
  ∃ before after, paths = before ++ path :: after ∧ P.file path x ≠ .missing ∧ ∀ p ∈ before, P.file p x = .missing

/-- The state in which the file of a new module is evaluated: the module is registered and current, and there is a new environment that
belongs to it, below the global environment. -/
def enterModule (s : St σ) (name : V) : St σ :=
  { s with mods := s.mods ++ [⟨name, [], [], [], Option.none⟩], frames := s.frames ++ [⟨[], some 0, some s.mods.length⟩], cur := s.mods.length }

/-- A request for the module `(x ...)`:
* `known`: a registered module is the answer, and nothing happens;
* `noFile`: otherwise, if there is no file for it, an empty module is registered;
* `loaded`: if there is a file, the module is registered and the forms of the file are evaluated in order in an environment of the module, which
  is the current module meanwhile;
* `failed`: an evaluation that does not return ends the request;
* `unreadable`: a file without forms, or that cannot be parsed, is an error. -/
inductive Resolves (P : Prims σ) (xs : List Name) (s : St σ) : Out Nat → St σ → Prop
  | known {m} : Registered s.mods (nameOf xs) m → Resolves P xs s (.ok m) s
  | noFile {paths} : (∀ md ∈ s.mods, md.name ≠ nameOf xs) → SearchPaths s xs paths → (∀ p ∈ paths, P.file p s.ext = .missing) →
      Resolves P xs s (.ok s.mods.length) { s with mods := s.mods ++ [⟨nameOf xs, [], [], [], Option.none⟩] }
  | loaded {paths path y ys v s'} : (∀ md ∈ s.mods, md.name ≠ nameOf xs) → SearchPaths s xs paths → FirstFile P s.ext paths path →
      P.file path s.ext = .exprs (y :: ys) →
      SeqEval (Evals P) s.frames.length (y :: ys) (enterModule s (nameOf xs)) (.ok v) s' →
      Resolves P xs s (.ok s.mods.length) { s' with cur := s.cur }
  | failed {paths path y ys t s'} : (∀ md ∈ s.mods, md.name ≠ nameOf xs) → SearchPaths s xs paths → FirstFile P s.ext paths path →
      P.file path s.ext = .exprs (y :: ys) →
      SeqEval (Evals P) s.frames.length (y :: ys) (enterModule s (nameOf xs)) (.stop t) s' →
      Resolves P xs s (.stop t) s'
  | unreadable {paths path} (msg : String) : (∀ md ∈ s.mods, md.name ≠ nameOf xs) → SearchPaths s xs paths → FirstFile P s.ext paths path →
      (P.file path s.ext = .exprs [] ∧ msg = "primitive-load: failed to load file" ∨ P.file path s.ext = .malformed ∧ msg = "Parse error") →
      Resolves P xs s (.stop (throwStop s "error" (.pair (.str msg) .nil))) (enterModule s (nameOf xs))

/-- Module `u` (its interface, if it has one) is put in front of the imports of module `m`. -/
def withImport (ms : List Modl) (m u : Nat) : List Modl :=
  ms.modify m fun md => { md with uses := (ms[u]?.bind Modl.pub).getD u :: md.uses }

/-- The modules are resolved one after the other, each imported into `m` before the next is resolved. -/
inductive ImportsAll (P : Prims σ) (m : Nat) : List (List Name) → St σ → Out Unit → St σ → Prop
  | nil {s} : ImportsAll P m [] s (.ok ()) s
  | cons {n ns s u s1 o s'} : Resolves P n s (.ok u) s1 → ImportsAll P m ns { s1 with mods := withImport s1.mods m u } o s' →
      ImportsAll P m (n :: ns) s o s'
  | fail {n ns s t s'} : Resolves P n s (.stop t) s' → ImportsAll P m (n :: ns) s (.stop t) s'

/-! ## Lemmas -/

theorem registered_iff {ms : List Modl} {name : V} {m : Nat} : findByName ms name = some m ↔ Registered ms name m := by
  unfold findByName Registered
  simp only
  constructor
  · intro h
    split at h
    · rename_i hi
      cases h
      refine ⟨⟨_, List.getElem?_eq_getElem hi, ?_⟩, ?_⟩
      · have := List.findIdx_getElem (w := hi); simpa using this
      · intro i md hlt hmd
        have := List.not_of_lt_findIdx hlt
        obtain ⟨h1, rfl⟩ := List.getElem?_eq_some_iff.1 hmd
        simpa using this
    · cases h
  · rintro ⟨⟨md, h1, h2⟩, h3⟩
    obtain ⟨hlt, rfl⟩ := List.getElem?_eq_some_iff.1 h1
    have : ms.findIdx (fun m => m.name == name) = m := by
      rw [List.findIdx_eq hlt]
      refine ⟨by simpa using h2, fun j hj => ?_⟩
      have := h3 j _ hj (List.getElem?_eq_getElem (Nat.lt_trans hj hlt))
      simpa using this
    rw [this, if_pos hlt]

theorem notRegistered_iff {ms : List Modl} {name : V} : findByName ms name = Option.none ↔ ∀ md ∈ ms, md.name ≠ name := by
  unfold findByName
  simp only
  constructor
  · intro h
    split at h
    · cases h
    · rename_i hi
      intro md hmd
      have : ms.findIdx (fun m => m.name == name) = ms.length := Nat.le_antisymm List.findIdx_le_length (by omega)
      have := List.findIdx_eq_length.1 this md hmd
      simpa using this
  · intro h
    rw [if_neg]
    have := (List.findIdx_eq_length (p := fun m : Modl => m.name == name) (xs := ms)).2 (by
      intro md hmd; simpa using h md hmd)
    omega

theorem Registered.kept {ms ms' : List Modl} {name : V} {m : Nat} (h : Registered ms name m) (k : ModsKept ms ms') : Registered ms' name m := by
  obtain ⟨⟨md, h1, h2⟩, h3⟩ := h
  obtain ⟨md', k1, k2⟩ := k m md h1
  refine ⟨⟨md', k1, k2.name.trans h2⟩, ?_⟩
  intro i mi hi hmi
  have hlt : i < ms.length := Nat.lt_trans hi (List.getElem?_eq_some_iff.1 h1).1
  obtain ⟨mi', k3, k4⟩ := k i _ (List.getElem?_eq_getElem hlt)
  rw [k3] at hmi; cases hmi
  rw [k4.name]
  exact h3 i _ hi (List.getElem?_eq_getElem hlt)

theorem pathParts_syms (xs : List Name) : pathParts (nodes (nameOf xs)) = xs := by
  unfold nameOf
  rw [nodes_listOf]
  induction xs with
  | nil => rfl
  | cons x xs ih => simp only [List.map_cons, pathParts, ih]

theorem modulePath_nameOf (xs : List Name) : modulePath (nameOf xs) = fileName xs := by
  unfold modulePath fileName
  rw [pathParts_syms]

theorem loadDirs_strs (ds : List String) : loadDirs (ds.map V.str) = ds := by
  induction ds with
  | nil => rfl
  | cons d ds ih => simp only [List.map_cons, loadDirs, ih]

theorem inDir_eq (d f : String) : inDir d f = joinPath d f := by
  unfold inDir joinPath
  cases h : d.toList.getLast? with
  | none =>
    have : d.toList = [] := List.getLast?_eq_none_iff.1 h
    simp [this]
  | some c =>
    have hne : d.toList ≠ [] := by rintro hh; rw [hh] at h; cases h
    by_cases hc : c = '/'
    · simp [hc]
    · simp [hc, hne]

theorem candidates_eq {s : St σ} {xs : List Name} {paths : List String} (h : SearchPaths s xs paths) : candidates s (nameOf xs) = paths := by
  obtain ⟨dirs, hd, rfl⟩ := h
  unfold candidates
  rw [modulePath_nameOf]
  have ho : ∀ r, obLookup s.mods s.root "%load-path" = r ↔ ownValue s.mods "%load-path" s.root = r := by
    intro r
    unfold obLookup ownValue
    cases s.mods[s.root]? with
    | none => rfl
    | some md => simp only [Option.bind_some, lookup_eq_findEntry]
  rcases hd with hd | ⟨hd, rfl⟩
  · rw [(ho _).2 hd]
    cases dirs with
    | nil => rfl
    | cons d ds =>
      show (match V.pair _ _ with
        | .pair a d => (loadDirs (nodes (.pair a d))).map fun dir => inDir dir (fileName xs)
        | _ => []) ++ _ = _
      show (loadDirs (nodes (listOf ((d :: ds).map V.str)))).map (fun dir => inDir dir (fileName xs)) ++ _ = _
      rw [nodes_listOf, loadDirs_strs]
      simp only [inDir_eq]
  · rw [(ho _).2 hd]
    rfl

theorem find_first {P : Prims σ} {x : σ} {paths : List String} {path : String} (h : FirstFile P x paths path) :
    paths.find? (fileExists P x) = some path := by
  obtain ⟨b, a, rfl, h1, h2⟩ := h
  rw [List.find?_eq_some_iff_append]
  refine ⟨by simpa [fileExists] using h1, b, a, rfl, ?_⟩
  intro p hp
  simp [fileExists, h2 p hp]

theorem find_none {P : Prims σ} {x : σ} {paths : List String} (h : ∀ p ∈ paths, P.file p x = .missing) :
    paths.find? (fileExists P x) = Option.none := by
  rw [List.find?_eq_none]
  intro p hp
  simp [fileExists, h p hp]

theorem useModule_eq (ms : List Modl) (m u : Nat) : useModule ms m u = withImport ms m u := by
  unfold useModule withImport
  have hi : ifaceOf ms u = (ms[u]?.bind Modl.pub).getD u := by
    unfold ifaceOf
    cases ms[u]? <;> rfl
  cases hm : ms[m]? with
  | none => rw [List.modify_eq_self (by have := List.getElem?_eq_none_iff.1 hm; omega)]
  | some md =>
    apply List.ext_getElem?
    intro i
    by_cases hij : i = m
    · subst hij
      rw [List.getElem?_set_self (List.getElem?_eq_some_iff.1 hm).1, List.getElem?_modify_eq, hm, hi]
      rfl
    · rw [List.getElem?_set_ne (Ne.symm hij), List.getElem?_modify_ne _ _ (Ne.symm hij)]

theorem loadFile_iff {P : Prims σ} {env : EnvId} {path : String} {s s' : St σ} {o : Out V} {x : V} {xs : List V} (h : P.file path s.ext = .exprs (x :: xs)) :
    loadFile P (run P) env path s = some (o, s') ↔ SeqEval (Evals P) env (x :: xs) s o s' := by
  unfold loadFile
  rw [getSt_bind, h]
  exact evalSeq_iff

theorem loadFile_bad {P : Prims σ} {env : EnvId} {path : String} {s : St σ} {msg : String}
    (h : (P.file path s.ext = .exprs [] ∨ P.file path s.ext = .missing) ∧ msg = "primitive-load: failed to load file" ∨
      P.file path s.ext = .malformed ∧ msg = "Parse error") :
    loadFile P (run P) env path s = some (.stop (throwStop s "error" (.pair (.str msg) .nil)), s) := by
  unfold loadFile
  rw [getSt_bind]
  rcases h with ⟨h | h, rfl⟩ | ⟨h, rfl⟩ <;> rw [h] <;> rfl

theorem resolve_file {P : Prims σ} {xs : List Name} {s : St σ} {paths : List String} {path : String} {g : Frame} (h0 : s.frames[0]? = some g)
    (hn : ∀ md ∈ s.mods, md.name ≠ nameOf xs) (hs : SearchPaths s xs paths) (hf : FirstFile P s.ext paths path) :
    resolveModule P (run P) (nameOf xs) s =
      (loadFile P (run P) s.frames.length path >>= fun _ => modSt (fun s' => { s' with cur := s.cur }) >>= fun _ => pure s.mods.length)
        (enterModule s (nameOf xs)) := by
  unfold resolveModule
  rw [getSt_bind]
  have hfn := notRegistered_iff.2 hn
  rw [bind_apply]
  unfold registerModule
  rw [hfn]
  simp only [Option.isSome_none, Bool.false_eq_true, if_false]
  rw [candidates_eq hs, find_first hf]
  simp only
  rw [bind_apply]
  unfold newModEnv
  simp only [h0, modSt_bind]
  rfl

theorem resolve_noFile {P : Prims σ} {xs : List Name} {s : St σ} {paths : List String}
    (hn : ∀ md ∈ s.mods, md.name ≠ nameOf xs) (hs : SearchPaths s xs paths) (hf : ∀ p ∈ paths, P.file p s.ext = .missing) :
    resolveModule P (run P) (nameOf xs) s =
      some (.ok s.mods.length, { s with mods := s.mods ++ [⟨nameOf xs, [], [], [], Option.none⟩] }) := by
  unfold resolveModule
  rw [getSt_bind]
  have hfn := notRegistered_iff.2 hn
  rw [bind_apply]
  unfold registerModule
  rw [hfn]
  simp only [Option.isSome_none, Bool.false_eq_true, if_false]
  rw [candidates_eq hs, find_none hf]
  rfl

theorem first_or_none (P : Prims σ) (x : σ) (paths : List String) :
    (∀ p ∈ paths, P.file p x = .missing) ∨ ∃ path, FirstFile P x paths path := by
  cases h : paths.find? (fileExists P x) with
  | none =>
    left
    intro p hp
    have := List.find?_eq_none.1 h p hp
    simpa [fileExists] using this
  | some path =>
    right
    obtain ⟨h1, b, a, h2, h3⟩ := List.find?_eq_some_iff_append.1 h
    refine ⟨path, b, a, h2, by simpa [fileExists] using h1, fun p hp => ?_⟩
    have := h3 p hp
    simpa [fileExists] using this

theorem resolves_iff {P : Prims σ} {xs : List Name} {s s' : St σ} {o : Out Nat} {paths : List String} {g : Frame} (h0 : s.frames[0]? = some g)
    (hs : SearchPaths s xs paths) : resolveModule P (run P) (nameOf xs) s = some (o, s') ↔ Resolves P xs s o s' := by
  constructor
  · intro h
    cases hf : findByName s.mods (nameOf xs) with
    | some m =>
      have : resolveModule P (run P) (nameOf xs) s = some (.ok m, s) := by
        unfold resolveModule
        simp only [bind_apply, getSt_apply, registerModule, hf, Option.isSome_some, if_true, pure_apply]
      rw [this] at h
      cases h
      exact .known (registered_iff.1 hf)
    | none =>
      have hn := notRegistered_iff.1 hf
      rcases first_or_none P s.ext paths with hm | ⟨path, hm⟩
      · rw [resolve_noFile hn hs hm] at h
        cases h
        exact .noFile hn hs hm
      · rw [resolve_file h0 hn hs hm, bind_eq_some] at h
        have hb : ∀ msg, ((P.file path s.ext = .exprs [] ∨ P.file path s.ext = .missing) ∧ msg = "primitive-load: failed to load file" ∨
            P.file path s.ext = .malformed ∧ msg = "Parse error") →
            loadFile P (run P) s.frames.length path (enterModule s (nameOf xs)) =
              some (.stop (throwStop s "error" (.pair (.str msg) .nil)), enterModule s (nameOf xs)) :=
          fun msg hh => loadFile_bad (s := enterModule s (nameOf xs)) hh
        cases hx : P.file path s.ext with
        | missing => obtain ⟨_, _, _, hne, _⟩ := hm; exact absurd hx hne
        | malformed =>
          rw [hb _ (.inr ⟨hx, rfl⟩)] at h
          rcases h with ⟨v, s1, h1, _⟩ | ⟨e, h1, h2⟩
          · cases h1
          · cases h1; cases h2
            exact .unreadable _ hn hs hm (.inr ⟨hx, rfl⟩)
        | exprs ys =>
          cases ys with
          | nil =>
            rw [hb _ (.inl ⟨.inl hx, rfl⟩)] at h
            rcases h with ⟨v, s1, h1, _⟩ | ⟨e, h1, h2⟩
            · cases h1
            · cases h1; cases h2
              exact .unreadable _ hn hs hm (.inl ⟨hx, rfl⟩)
          | cons y ys =>
            rcases h with ⟨v, s1, h1, h2⟩ | ⟨e, h1, rfl⟩
            · rw [modSt_bind] at h2
              cases h2
              exact .loaded hn hs hm hx ((loadFile_iff (s := enterModule s (nameOf xs)) hx).1 h1)
            · exact .failed hn hs hm hx ((loadFile_iff (s := enterModule s (nameOf xs)) hx).1 h1)
  · intro h
    cases h with
    | known h =>
      unfold resolveModule
      simp only [bind_apply, getSt_apply, registerModule, registered_iff.2 h, Option.isSome_some, if_true, pure_apply]
    | noFile hn hs hm => exact resolve_noFile hn hs hm
    | loaded hn hs hm hx hq =>
      rw [resolve_file h0 hn hs hm, bind_apply, (loadFile_iff (s := enterModule s (nameOf xs)) hx).2 hq]
      rfl
    | failed hn hs hm hx hq =>
      rw [resolve_file h0 hn hs hm, bind_apply, (loadFile_iff (s := enterModule s (nameOf xs)) hx).2 hq]
    | unreadable msg hn hs hm hx =>
      rw [resolve_file h0 hn hs hm, bind_apply, loadFile_bad (s := enterModule s (nameOf xs)) (msg := msg)
        (by rcases hx with ⟨h, rfl⟩ | ⟨h, rfl⟩; exact .inl ⟨.inl h, rfl⟩; exact .inr ⟨h, rfl⟩)]
      rfl

/-- A call of a builtin, once its arguments are evaluated. -/
theorem evals_callPrim {P : Prims σ} {env : EnvId} {n : Name} {a : Int} {es vs : List V} {s s1 s' : St σ} {o : Out V}
    (hn : n ≠ "apply" ∧ ¬ (n = "map" ∨ n = "map-in-order") ∧ isCallCC n ≠ true)
    (ha : a = -2 ∧ isEvalOnly n = false ∨ a = vs.length ∧ (a = 0 ∨ a = 1 ∨ a = 2 ∨ a = 3))
    (h : ArgsEval (Evals P) env es s (.ok vs) s1) :
    Evals P env (.pair (.func n a) (listOf es)) s o s' ↔ callPrim P (run P) n vs s1 = some (o, s') := by
  rw [evals_step]
  show evalFuncCall P (run P) env n a (listOf es) s = _ ↔ _
  unfold evalFuncCall
  rw [if_neg hn.1, if_neg hn.2.1, if_neg hn.2.2, bind_apply, nodes_listOf, evalArgs_iff.2 h]
  show callFunc P (run P) n a vs s1 = _ ↔ _
  unfold callFunc
  rcases ha with ⟨rfl, h1⟩ | ⟨h1, h2⟩
  · have : ¬ (n = "call/cc" ∨ n = "call-with-current-continuation") := by
      simpa [isCallCC] using hn.2.2
    simp [h1, this]
  · rw [if_pos h2, if_pos h1.symm]

theorem args_one {P : Prims σ} {env : EnvId} {e v : V} {s s1 : St σ} (h : Evals P env e s (.ok v) s1) :
    ArgsEval (Evals P) env [e] s (.ok [v]) s1 := .cons h .nil

/-- The same for a builtin with one parameter. -/
theorem evals_call1 {P : Prims σ} {env : EnvId} {n : Name} {e v : V} {s s1 s' : St σ} {o : Out V}
    (hn : n ≠ "apply" ∧ ¬ (n = "map" ∨ n = "map-in-order") ∧ isCallCC n ≠ true) (h : Evals P env e s (.ok v) s1) :
    Evals P env (listOf [.func n 1, e]) s o s' ↔ callPrim P (run P) n [v] s1 = some (o, s') :=
  evals_callPrim (a := 1) hn (.inr ⟨rfl, by decide⟩) (args_one h)

theorem resolves_sound {P : Prims σ} {xs : List Name} {s s' : St σ} {o : Out Nat} {g : Frame} (h0 : s.frames[0]? = some g)
    (h : Resolves P xs s o s') : resolveModule P (run P) (nameOf xs) s = some (o, s') := by
  cases h with
  | known h =>
    unfold resolveModule
    simp only [bind_apply, getSt_apply, registerModule, registered_iff.2 h, Option.isSome_some, if_true, pure_apply]
  | noFile hn hs hm => exact resolve_noFile hn hs hm
  | loaded hn hs hm hx hq => exact (resolves_iff h0 hs).2 (.loaded hn hs hm hx hq)
  | failed hn hs hm hx hq => exact (resolves_iff h0 hs).2 (.failed hn hs hm hx hq)
  | unreadable msg hn hs hm hx => exact (resolves_iff h0 hs).2 (.unreadable msg hn hs hm hx)

theorem seqEval_run {P : Prims σ} {env : EnvId} {xs : List V} {s s' : St σ} {o : Out V} {R : St σ → St σ → Prop}
    (ht : ∀ a b c, R a b → R b c → R a c) (hr : ∀ {t : Task} {s s' : St σ} {o : Out V}, run P t s = some (o, s') → R s s')
    (h : SeqEval (Evals P) env xs s o s') : R s s' := by
  induction h with
  | last h => exact hr (evals_iff.1 h)
  | next h _ ih => exact ht _ _ _ (hr (evals_iff.1 h)) ih
  | fail h => exact hr (evals_iff.1 h)

theorem seqEval_mods {P : Prims σ} {env : EnvId} {xs : List V} {s s' : St σ} {o : Out V} (h : SeqEval (Evals P) env xs s o s') :
    ModsKept s.mods s'.mods ∧ s'.root = s.root :=
  seqEval_run (R := fun s s' => ModsKept s.mods s'.mods ∧ s'.root = s.root) (fun _ _ _ h k => ⟨h.1.trans k.1, k.2.trans h.2⟩) run_mods h

theorem run_global {P : Prims σ} {t : Task} {s s' : St σ} {o : Out V} (h : run P t s = some (o, s')) :
    (∃ g, s.frames[0]? = some g) → ∃ g, s'.frames[0]? = some g := by
  rintro ⟨g, hg⟩
  obtain ⟨g', h', _⟩ := (run_ext h).frames 0 g hg
  exact ⟨g', h'⟩

theorem seqEval_global {P : Prims σ} {env : EnvId} {xs : List V} {s s' : St σ} {o : Out V} (h : SeqEval (Evals P) env xs s o s') :
    (∃ g, s.frames[0]? = some g) → ∃ g, s'.frames[0]? = some g :=
  seqEval_run (R := fun s s' : St σ => (∃ g, s.frames[0]? = some g) → ∃ g, s'.frames[0]? = some g) (fun _ _ _ h k w => k (h w)) run_global h

theorem enter_global {s : St σ} {name : V} (h : ∃ g, s.frames[0]? = some g) : ∃ g, (enterModule s name).frames[0]? = some g := by
  obtain ⟨g, hg⟩ := h
  exact ⟨g, by
    show (s.frames ++ [_])[0]? = some g
    rw [List.getElem?_append_left (List.getElem?_eq_some_iff.1 hg).1, hg]⟩

theorem Resolves.global {P : Prims σ} {xs : List Name} {s s' : St σ} {o : Out Nat} (h : Resolves P xs s o s') (h0 : ∃ g, s.frames[0]? = some g) :
    ∃ g, s'.frames[0]? = some g := by
  cases h with
  | known => exact h0
  | noFile => exact h0
  | loaded _ _ _ _ hq =>
    obtain ⟨g, hg⟩ := seqEval_global hq (enter_global h0)
    exact ⟨g, hg⟩
  | failed _ _ _ _ hq => exact seqEval_global hq (enter_global h0)
  | unreadable => exact enter_global h0

theorem registered_new {ms : List Modl} {name : V} (hn : ∀ md ∈ ms, md.name ≠ name) (rest : List Modl) (ob us es pb) :
    Registered (ms ++ ⟨name, ob, us, es, pb⟩ :: rest) name ms.length := by
  refine ⟨⟨⟨name, ob, us, es, pb⟩, by simp, rfl⟩, fun i md hi hmd => ?_⟩
  rw [List.getElem?_append_left hi] at hmd
  exact hn md (List.mem_of_getElem? hmd)

/-- After the request the name is registered. -/
theorem Resolves.registered {P : Prims σ} {xs : List Name} {s s' : St σ} {o : Out Nat} (h : Resolves P xs s o s') :
    ∃ m, Registered s'.mods (nameOf xs) m ∧ ∀ r, o = .ok r → r = m := by
  cases h with
  | known h => exact ⟨_, h, fun r hr => by cases hr; rfl⟩
  | noFile hn => exact ⟨_, registered_new hn _ _ _ _ _, fun r hr => by cases hr; rfl⟩
  | loaded hn _ _ _ hq =>
    exact ⟨_, (registered_new (ms := s.mods) hn [] [] [] [] Option.none).kept (seqEval_mods hq).1, fun r hr => by cases hr; rfl⟩
  | failed hn _ _ _ hq =>
    exact ⟨_, (registered_new (ms := s.mods) hn [] [] [] [] Option.none).kept (seqEval_mods hq).1, fun r hr => by cases hr⟩
  | unreadable _ hn => exact ⟨_, registered_new hn _ _ _ _ _, fun r hr => by cases hr⟩

/-! ### define-module -/

/-- A registered module is looked up or created independently of the current module. -/
theorem resolveModule_cur {P : Prims σ} {name : V} {s s' : St σ} {m c : Nat} (h : resolveModule P (run P) name { s with cur := c } = some (.ok m, s')) :
    s'.cur = c ∧ resolveModule P (run P) name s = some (.ok m, { s' with cur := s.cur }) := by
  unfold resolveModule at h ⊢
  rw [getSt_bind] at h ⊢
  rw [bind_apply] at h ⊢
  unfold registerModule at h ⊢
  cases hf : findByName s.mods name with
  | some k =>
    simp only [hf, Option.isSome_some, if_true, pure_apply, Option.some.injEq, Prod.mk.injEq, Out.ok.injEq] at h ⊢
    obtain ⟨rfl, rfl⟩ := h
    exact ⟨rfl, rfl, rfl⟩
  | none =>
    have hcand : candidates { s with cur := c } name = candidates s name := rfl
    simp only [hf, Option.isSome_none, Bool.false_eq_true, if_false, hcand] at h ⊢
    cases hx : (candidates s name).find? (fileExists P s.ext) with
    | none =>
      rw [hx] at h
      simp only [pure_apply, Option.some.injEq, Prod.mk.injEq, Out.ok.injEq] at h ⊢
      obtain ⟨rfl, rfl⟩ := h
      exact ⟨rfl, rfl, rfl⟩
    | some path =>
      rw [hx] at h
      simp only at h ⊢
      rw [bind_apply] at h ⊢
      simp only [newModEnv] at h ⊢
      cases hg : s.frames[0]? with
      | none => simp only [hg] at h; cases h
      | some g =>
        simp only [hg, modSt_bind] at h ⊢
        rw [bind_apply] at h ⊢
        cases hl : loadFile P (run P) s.frames.length path (enterModule s name) with
        | none =>
          have : loadFile P (run P) s.frames.length path _ = Option.none := hl
          erw [this] at h; cases h
        | some q =>
          obtain ⟨o, s1⟩ := q
          have hl' : loadFile P (run P) s.frames.length path _ = some (o, s1) := hl
          erw [hl'] at h ⊢
          cases o with
          | stop e => cases h
          | ok v =>
            simp only [modSt_bind, pure_apply, Option.some.injEq, Prod.mk.injEq, Out.ok.injEq] at h ⊢
            obtain ⟨rfl, rfl⟩ := h
            exact ⟨rfl, rfl, rfl⟩

end Pscm.Ev

import Verif.EvHide3
import Verif.EvApply
/-!
# Calls whose arguments are arbitrary expressions

`apply_procedure` allocates the frame of the call first and binds each parameter before the next argument is evaluated.  That this cannot
be observed follows from `hide_run`: nothing refers to the new frame yet.
-/
namespace Pscm.Ev
variable {σ : Type}
open EM (stop getSt modSt)

/-- All environments but `n`. -/
def others (n : Nat) : Dom := ⟨(· ≠ n), n + 1, fun _ => True, fun _ h _ => by omega, fun _ _ _ _ => trivial⟩

/-- Nothing in the state mentions environment number `n`; `Q` says it of the rest of the world. -/
structure Unreferenced (Q : σ → Prop) (n : Nat) (s : St σ) : Prop where
  pos : 0 ≠ n
  frames : ∀ i f, s.frames[i]? = some f → i ≠ n → CleanEs (others n) f.entries ∧ ∀ p, f.parent = some p → p ≠ n
  mods : ∀ m ∈ s.mods, CleanEs (others n) m.obarray
  proms : ∀ p ∈ s.proms, p.env ≠ n ∧ Clean (others n) p.expr ∧ ∀ v, p.val = some v → Clean (others n) v
  winds : ∀ w ∈ s.winds, Clean (others n) w.inG ∧ Clean (others n) w.outG
  conts : ∀ c ∈ s.conts, ∀ w ∈ c.winds, Clean (others n) w.inG ∧ Clean (others n) w.outG
  ext : Q s.ext

/-- The state in which a call begins: with one more frame, empty, below `penv`. -/
def enter (s : St σ) (penv : EnvId) (md : Option Nat) : St σ := { s with frames := s.frames ++ [⟨[], some penv, md⟩] }

/-- The state with the variables of frame `e` set to `es`. -/
def withEntries (s : St σ) (e : EnvId) (es : List (Name × V)) : St σ :=
  { s with frames := s.frames.modify e fun f => { f with entries := es } }

theorem withEntries_eq (s : St σ) (e es) : withEntries s e es = repl e es s := by
  unfold withEntries repl
  congr 1
  apply List.ext_getElem?
  intro i
  rw [getElem?_updFrame, List.getElem?_modify]
  by_cases h : e = i
  · subst h; simp
  · have : ¬ i = e := fun k => h k.symm
    simp [h, this]

variable {Q : σ → Prop} {P : Prims σ}

theorem Unreferenced.enter {s : St σ} {penv md} (h : Unreferenced Q s.frames.length s) (hp : penv < s.frames.length) :
    CleanSt Q (others s.frames.length) (Ev.enter s penv md) where
  pos := h.pos
  lt := by simp [others, Ev.enter]
  frames := by
    intro i f hf hi
    have hi' : i ≠ s.frames.length := hi
    simp only [Ev.enter] at hf
    rw [List.getElem?_append] at hf
    split at hf
    · exact h.frames i f hf hi
    · rw [List.getElem?_eq_none] at hf
      · cases hf
      · simp; omega
  mods := h.mods
  proms := h.proms
  winds := h.winds
  conts := h.conts
  ext := h.ext

theorem repl_repl {s : St σ} {e es es'} : repl e es (repl e es' s) = repl e es s := by
  simp only [repl, updFrame_updFrame]
  rfl

theorem repl_bindOwn {s : St σ} {e x v es} {f : Frame} (hf : s.frames[e]? = some f) (hx : x ∉ es.map Prod.fst) :
    (bindOwn e x v : EM σ Unit) (repl e es s) = some (.ok (), repl e ((x, v) :: es) s) := by
  rw [bindOwn_apply]
  congr 3
  simp only [repl, updFrame_updFrame]
  rw [updFrame_congr _ _ _ _ f hf]
  simp [upsert_fresh hx]

/-- The frame still exists after an evaluation. -/
theorem run_frame {t : Task} {s s' : St σ} {o : Out V} {e : Nat} (h : run P t s = some (o, s')) (he : ∃ f, s.frames[e]? = some f) :
    ∃ f, s'.frames[e]? = some f := by
  obtain ⟨f, hf⟩ := he
  obtain ⟨f', hf', _⟩ := (run_ext h).frames e f hf
  exact ⟨f', hf'⟩

theorem evalArgs_frame {env : EnvId} {xs : List V} {s s' : St σ} {o : Out (List V)} {e : Nat} (h : evalArgs (run P) env xs s = some (o, s'))
    (he : ∃ f, s.frames[e]? = some f) : ∃ f, s'.frames[e]? = some f := by
  induction xs generalizing s o with
  | nil => cases h; exact he
  | cons x xs ih =>
    simp only [evalArgs, bind_eq_some] at h
    rcases h with ⟨v, s1, h1, h⟩ | ⟨e', h1, rfl⟩
    · rcases h with ⟨vs, s2, h2, h⟩ | ⟨e', h2, rfl⟩
      · cases h; exact ih h2 (run_frame h1 he)
      · exact ih h2 (run_frame h1 he)
    · exact run_frame h1 he

variable {n env : Nat}

/-- Binding the parameters, seen through `hide_run`: evaluate all arguments, then bind. -/
theorem bindParams_ok (hP : Honest Q (others n) P) (h0 : 0 ≠ n) (he : env ≠ n) (ps : List Name) (rest : Option Name) (args : List V)
    (es : List (Name × V)) (s s1 : St σ) (vs : List V) (hc : CleanSt Q (others n) s) (ha : CleanL (others n) args)
    (hf : ∃ f, s.frames[n]? = some f) (hnd : (ps ++ rest.toList).Nodup) (hdis : ∀ x ∈ ps ++ rest.toList, x ∉ es.map Prod.fst)
    (hcnt : CountOk ps rest args.length) (hv : evalArgs (run P) env args s = some (.ok vs, s1)) :
    bindParams (run P) env n (ps.map V.sym) rest args (repl n es s) = some (.ok (), repl n (callBindings ps rest vs ++ es) s1) := by
  have hrun := recOK_run hP h0
  have hid : Hid (others n) n := fun h => h rfl
  induction ps generalizing args es s vs with
  | nil =>
    cases rest with
    | none =>
      have : args = [] := by simpa [CountOk] using hcnt
      subst this
      cases hv
      rfl
    | some r =>
      simp only [List.map_nil, bindParams, bind_apply, (evalArgs_kp hrun he ha).eqv (fun _ => trivial) n s es hid hc, hv, Option.map_some]
      obtain ⟨f1, hf1⟩ := evalArgs_frame hv hf
      rw [repl_bindOwn hf1 (hdis r (by simp))]
      simp [callBindings]
  | cons p ps ih =>
    cases args with
    | nil => cases rest <;> simp [CountOk] at hcnt
    | cons a as =>
      simp only [evalArgs, bind_eq_some] at hv
      rcases hv with ⟨v, s2, h1, hv⟩ | ⟨e', h1, hh⟩
      · rcases hv with ⟨vs', s3, h2, hv⟩ | ⟨e', h2, hh⟩
        · cases hv
          have hp := hdis p (by simp)
          have hnd' : (ps ++ rest.toList).Nodup ∧ p ∉ ps ++ rest.toList := by
            simp only [List.cons_append, List.nodup_cons] at hnd
            exact ⟨hnd.2, hnd.1⟩
          have k := hrun (.eval env a) ⟨he, ha.head⟩
          have hf2 := run_frame h1 hf
          obtain ⟨f2, hf2'⟩ := hf2
          simp only [List.map_cons, bindParams, bind_apply, k.eqv (fun _ => trivial) n s es hid hc, h1, Option.map_some, repl_bindOwn hf2' hp]
          have c2 := (k.good _ _ _ trivial hc h1).1
          rw [ih as ((p, v) :: es) s2 vs' c2 ha.tail ⟨f2, hf2'⟩ hnd'.1 ?_ ?_ h2]
          · congr 3
            cases rest <;> simp [callBindings]
          · intro x hx
            simp only [List.map_cons, List.mem_cons, not_or]
            refine ⟨?_, hdis x (by simp only [List.cons_append, List.mem_cons]; exact .inr hx)⟩
            rintro rfl
            exact hnd'.2 hx
          · cases rest <;> simpa [CountOk] using hcnt
        · cases hh
      · cases hh

theorem bindParams_stop (hP : Honest Q (others n) P) (h0 : 0 ≠ n) (he : env ≠ n) (ps : List Name) (rest : Option Name) (args : List V)
    (es : List (Name × V)) (s s1 : St σ) (e : Stop) (hc : CleanSt Q (others n) s) (ha : CleanL (others n) args)
    (hf : ∃ f, s.frames[n]? = some f) (hnd : (ps ++ rest.toList).Nodup) (hdis : ∀ x ∈ ps ++ rest.toList, x ∉ es.map Prod.fst)
    (hcnt : CountOk ps rest args.length) (hv : evalArgs (run P) env args s = some (.stop e, s1)) :
    ∃ es', bindParams (run P) env n (ps.map V.sym) rest args (repl n es s) = some (.stop e, repl n es' s1) := by
  have hrun := recOK_run hP h0
  have hid : Hid (others n) n := fun h => h rfl
  induction ps generalizing args es s with
  | nil =>
    cases rest with
    | none =>
      have : args = [] := by simpa [CountOk] using hcnt
      subst this
      cases hv
    | some r =>
      refine ⟨es, ?_⟩
      simp only [List.map_nil, bindParams, bind_apply, (evalArgs_kp hrun he ha).eqv (fun _ => trivial) n s es hid hc, hv, Option.map_some]
  | cons p ps ih =>
    cases args with
    | nil => cases rest <;> simp [CountOk] at hcnt
    | cons a as =>
      have k := hrun (.eval env a) ⟨he, ha.head⟩
      simp only [evalArgs, bind_eq_some] at hv
      rcases hv with ⟨v, s2, h1, hv⟩ | ⟨e', h1, hh⟩
      · rcases hv with ⟨vs', s3, h2, hv⟩ | ⟨e', h2, hh⟩
        · cases hv
        · cases hh
          have hp := hdis p (by simp)
          have hnd' : (ps ++ rest.toList).Nodup ∧ p ∉ ps ++ rest.toList := by
            simp only [List.cons_append, List.nodup_cons] at hnd
            exact ⟨hnd.2, hnd.1⟩
          have hf2 := run_frame h1 hf
          obtain ⟨f2, hf2'⟩ := hf2
          simp only [List.map_cons, bindParams, bind_apply, k.eqv (fun _ => trivial) n s es hid hc, h1, Option.map_some, repl_bindOwn hf2' hp]
          have c2 := (k.good _ _ _ trivial hc h1).1
          refine ih as ((p, v) :: es) s2 c2 ha.tail ⟨f2, hf2'⟩ hnd'.1 ?_ ?_ h2
          · intro x hx
            simp only [List.map_cons, List.mem_cons, not_or]
            refine ⟨?_, hdis x (by simp only [List.cons_append, List.mem_cons]; exact .inr hx)⟩
            rintro rfl
            exact hnd'.2 hx
          · cases rest <;> simpa [CountOk] using hcnt
      · cases hh
        refine ⟨es, ?_⟩
        simp only [List.map_cons, bindParams, bind_apply, k.eqv (fun _ => trivial) n s es hid hc, h1, Option.map_some]

theorem bindParams_none (hP : Honest Q (others n) P) (h0 : 0 ≠ n) (he : env ≠ n) (ps : List Name) (rest : Option Name) (args : List V)
    (es : List (Name × V)) (s : St σ) (hc : CleanSt Q (others n) s) (ha : CleanL (others n) args)
    (hf : ∃ f, s.frames[n]? = some f) (hnd : (ps ++ rest.toList).Nodup) (hdis : ∀ x ∈ ps ++ rest.toList, x ∉ es.map Prod.fst)
    (hcnt : CountOk ps rest args.length) (hv : evalArgs (run P) env args s = Option.none) :
    bindParams (run P) env n (ps.map V.sym) rest args (repl n es s) = Option.none := by
  have hrun := recOK_run hP h0
  have hid : Hid (others n) n := fun h => h rfl
  induction ps generalizing args es s with
  | nil =>
    cases rest with
    | none =>
      have : args = [] := by simpa [CountOk] using hcnt
      subst this
      cases hv
    | some r =>
      simp only [List.map_nil, bindParams, bind_apply, (evalArgs_kp hrun he ha).eqv (fun _ => trivial) n s es hid hc, hv, Option.map_none]
  | cons p ps ih =>
    cases args with
    | nil => cases rest <;> simp [CountOk] at hcnt
    | cons a as =>
      have k := hrun (.eval env a) ⟨he, ha.head⟩
      simp only [List.map_cons, bindParams, bind_apply, k.eqv (fun _ => trivial) n s es hid hc]
      simp only [evalArgs, bind_apply] at hv
      cases h1 : run P (.eval env a) s with
      | none => rfl
      | some q =>
        obtain ⟨o, s2⟩ := q
        rw [h1] at hv
        cases o with
        | stop e => cases hv
        | ok v =>
          have hp := hdis p (by simp)
          have hnd' : (ps ++ rest.toList).Nodup ∧ p ∉ ps ++ rest.toList := by
            simp only [List.cons_append, List.nodup_cons] at hnd
            exact ⟨hnd.2, hnd.1⟩
          have hf2 := run_frame h1 hf
          obtain ⟨f2, hf2'⟩ := hf2
          simp only [Option.map_some, repl_bindOwn hf2' hp]
          have c2 := (k.good _ _ _ trivial hc h1).1
          refine ih as ((p, v) :: es) s2 c2 ha.tail ⟨f2, hf2'⟩ hnd'.1 ?_ ?_ ?_
          · intro x hx
            simp only [List.map_cons, List.mem_cons, not_or]
            refine ⟨?_, hdis x (by simp only [List.cons_append, List.mem_cons]; exact .inr hx)⟩
            rintro rfl
            exact hnd'.2 hx
          · cases rest <;> simpa [CountOk] using hcnt
          · simp only at hv
            cases h2 : evalArgs (run P) env as s2 with
            | none => rfl
            | some q =>
              obtain ⟨o, s3⟩ := q
              rw [h2] at hv
              cases o <;> cases hv

/-- A parameter list without rest parameter and a wrong number of arguments: never a normal return. -/
theorem bindParams_count {rec : Rec σ} {env pe : EnvId} {ps : List Name} {args : List V} {s s' : St σ} {u : Unit}
    (h : bindParams rec env pe (ps.map V.sym) Option.none args s = some (.ok u, s')) : args.length = ps.length := by
  induction ps generalizing args s with
  | nil =>
    cases args with
    | nil => rfl
    | cons a as => cases h
  | cons p ps ih =>
    cases args with
    | nil => cases h
    | cons a as =>
      simp only [List.map_cons, bindParams, bind_eq_some] at h
      rcases h with ⟨v, s1, h1, h⟩ | ⟨e, h1, hh⟩
      · rcases h with ⟨u, s2, h2, h⟩ | ⟨e, h2, hh⟩
        · simp [ih h]
        · cases hh
      · cases hh

theorem enter_repl {s : St σ} {penv md} : repl s.frames.length [] (enter s penv md) = enter s penv md := by
  simp [repl, enter, updFrame_push]

theorem applyProc_enter {s : St σ} {env penv : EnvId} {f : Frame} {rec : Rec σ} {p b : V} {args : List V} (hf : s.frames[penv]? = some f) :
    applyProc rec env p b penv args s =
      (bindParams rec env s.frames.length (splitParams p).1 (splitParams p).2 args >>= fun _ => evalSeq rec s.frames.length (nodes b))
        (enter s penv f.modl) := by
  unfold applyProc
  simp only [bind_apply, newEnv_apply hf]
  rfl

end Pscm.Ev

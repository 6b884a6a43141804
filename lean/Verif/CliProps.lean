import Verif.Cli
/-!
# C112: the command line
-/
namespace Pscm.Cli
open Rd
variable {σ : Type}

/-- The options as the usage text describes them. -/
inductive Opt
  | debug
  | help (long : Bool)
  | file (f : String)
  | script (f : String)
  | test (f : String)
  deriving DecidableEq

/-- How an option is typed. -/
def Opt.words : Opt → List String
  | .debug => ["--debug"]
  | .help false => ["-h"]
  | .help true => ["--help"]
  | .file f => [f]
  | .script f => ["-s", f]
  | .test f => ["--test", f]

/-- A file given without a switch must not look like a switch of the program. -/
def Opt.Ok : Opt → Prop
  | .file f => f ∉ ["--debug", "-h", "--help", "-s", "--test"]
  | _ => True

/-- The file an option names. -/
def Opt.names : Opt → Option String
  | .file f => some f
  | .script f => some f
  | .test f => some f
  | _ => none

def Opt.isHelp : Opt → Bool
  | .help _ => true
  | _ => false

def words (os : List Opt) : List String := os.flatMap Opt.words

/-- The files named. -/
def files (os : List Opt) : List String := os.filterMap Opt.names

/-! ## Lemmas -/

theorem loop_debug (b : Bool) (f : Option String) (t : List String) : argLoop b f ("--debug" :: t) = argLoop true f t := by
  cases t <;> simp [argLoop]

theorem loop_help (b : Bool) (f : Option String) (l : Bool) (t : List String) : argLoop b f ((Opt.help l).words ++ t) = .help := by
  cases l <;> cases t <;> simp [argLoop, Opt.words]

theorem loop_file {o : Opt} {f : String} (h : o.names = some f) (hk : o.Ok) (b : Bool) (t : List String) :
    argLoop b none (o.words ++ t) = argLoop b (some f) t ∧ ∀ g, argLoop b (some g) (o.words ++ t) = .error false := by
  cases o with
  | file g =>
    cases h
    simp only [Opt.Ok, List.mem_cons, List.not_mem_nil, or_false, not_or] at hk
    obtain ⟨h1, h2, h3, h4, h5⟩ := hk
    cases t <;> simp [argLoop, Opt.words, h1, h2, h3, h4, h5]
  | script g => cases h; cases t <;> simp [argLoop, Opt.words]
  | test g => cases h; cases t <;> simp [argLoop, Opt.words]
  | debug => cases h
  | help l => cases h

theorem loop_opts (os : List Opt) (t : List String) : ∀ (b : Bool) (f : Option String), (∀ o ∈ os, o.Ok ∧ o.isHelp = false) →
    (files os).length + f.toList.length ≤ 1 →
    argLoop b f (words os ++ t) = argLoop (b || os.contains .debug) (f.or (files os).head?) t := by
  induction os with
  | nil => intro b f _ _; simp [words, files]
  | cons o os ih =>
    intro b f h hf
    have h' : ∀ o ∈ os, o.Ok ∧ o.isHelp = false := fun o ho => h o (.tail _ ho)
    have e : words (o :: os) ++ t = o.words ++ (words os ++ t) := by simp [words]
    rw [e]
    cases hn : o.names with
    | none =>
      have ef : files (o :: os) = files os := by simp [files, hn]
      cases o with
      | debug =>
        show argLoop b f ("--debug" :: (words os ++ t)) = _
        rw [loop_debug, ih true f h' (by rw [ef] at hf; exact hf), ef]
        simp
      | help l => have := (h _ (.head _)).2; cases this
      | _ => cases hn
    | some g =>
      have ef : files (o :: os) = g :: files os := by simp [files, hn]
      rw [ef] at hf ⊢
      have hf0 : f = none := by
        cases f with
        | none => rfl
        | some x => simp at hf
      subst hf0
      rw [(loop_file hn (h o (.head _)).1 b _).1, ih b (some g) h' (by simp at hf ⊢; exact hf)]
      have : (o :: os).contains Opt.debug = os.contains Opt.debug := by
        have hne : o ≠ .debug := by rintro rfl; cases hn
        simp [List.contains_cons, hne, eq_comm]
      rw [this]
      rfl

theorem main_words {os : List Opt} (h : os ≠ []) (t : List String) : main (words os ++ t) = argLoop false none (words os ++ t) := by
  cases os with
  | nil => exact absurd rfl h
  | cons o os =>
    have : (words (o :: os) ++ t).isEmpty = false := by
      cases o with
      | help l => cases l <;> simp [words, Opt.words]
      | _ => simp [words, Opt.words]
    simp [main, this]

/-! ## C112 -/

/-- C112: options in any order with exactly one file: that file is evaluated, with debugging output iff `--debug` was given. -/
theorem c112_file (os : List Opt) (f : String) (h : ∀ o ∈ os, o.Ok ∧ o.isHelp = false) (hf : files os = [f]) :
    main (words os) = .run f (os.contains .debug) := by
  have hne : os ≠ [] := by rintro rfl; cases hf
  have := main_words hne []
  rw [List.append_nil] at this
  rw [this]
  have := loop_opts os [] false none h (by rw [hf]; simp)
  rw [List.append_nil] at this
  rw [this, hf]
  simp [argLoop]

/-- C112: `-h` or `--help` after correct options shows the usage text and nothing is evaluated, whatever follows. -/
theorem c112_help (os : List Opt) (l : Bool) (t : List String) (h : ∀ o ∈ os, o.Ok ∧ o.isHelp = false) (hf : (files os).length ≤ 1) :
    main (words os ++ ((Opt.help l).words ++ t)) = .help := by
  cases os with
  | nil => cases l <;> simp [words, main, Opt.words] <;> cases t <;> simp [argLoop]
  | cons o os => rw [main_words (by simp), loop_opts _ _ false none h (by simpa using hf), loop_help]

/-- C112: a second file is an error, whatever follows; nothing is evaluated. -/
theorem c112_duplicate (os : List Opt) (o : Opt) (t : List String) (h : ∀ p ∈ os, p.Ok ∧ p.isHelp = false) (hf : (files os).length = 1)
    (ho : o.Ok) (hn : ∃ f, o.names = some f) : main (words os ++ (o.words ++ t)) = .error false := by
  obtain ⟨g, hg⟩ := List.length_eq_one_iff.1 hf
  have hne : os ≠ [] := by rintro rfl; cases hg
  obtain ⟨f, hn⟩ := hn
  rw [main_words hne, loop_opts os _ false none h (by simp [hf]), hg]
  exact (loop_file hn ho _ t).2 g

/-- C112: a switch without its file is an error; so is a command line without a file; no arguments start the REPL. -/
theorem c112_missing (os : List Opt) (h : ∀ o ∈ os, o.Ok ∧ o.isHelp = false) (hf : (files os).length ≤ 1) :
    main (words os ++ ["-s"]) = .error true ∧ main (words os ++ ["--test"]) = .error true ∧ (files os = [] → os ≠ [] → main (words os) = .error true) ∧
      main [] = .repl := by
  have h0 : ∀ sw, sw = "-s" ∨ sw = "--test" → main (words os ++ [sw]) = .error true := by
    intro sw hsw
    have key : ∀ b f, argLoop b f [sw] = .error true := by
      rcases hsw with rfl | rfl <;> intro b f <;> simp [argLoop]
    cases os with
    | nil => simp [words, main, key]
    | cons o os => rw [main_words (by simp), loop_opts _ _ false none h (by simpa using hf), key]
  refine ⟨h0 _ (.inl rfl), h0 _ (.inr rfl), fun hn hne => ?_, rfl⟩
  have e := main_words hne []
  rw [List.append_nil] at e
  have e2 := loop_opts os [] false none h (by simp [hn])
  rw [List.append_nil] at e2
  rw [e, e2, hn]
  simp [argLoop]

/-- C112: the expressions of the file are evaluated in order, each in the world the ones before it left, until one ends the process;
the values are printed in order.  `Runs E s ds out st`: what should happen. -/
inductive Runs (E : Eval σ) : σ → List D → List Bytes → Int → Prop
  | done {s} : Runs E s [] [] 0
  | value {s s' d ds t out st} : E s d = .value t s' → Runs E s' ds out st → Runs E s (d :: ds) (t :: out) st
  | unspecified {s s' d ds out st} : E s d = .unspecified s' → Runs E s' ds out st → Runs E s (d :: ds) out st
  | error {s s' d ds out st} : E s d = .error s' → Runs E s' ds out st → Runs E s (d :: ds) out st
  | exits {s d ds n} : E s d = .exits n → Runs E s (d :: ds) [] n

/-- C112: running a file with at least one expression. -/
theorem c112_run (E : Eval σ) (s : σ) (d : D) (ds : List D) : Runs E s (d :: ds) (doEval E s (.exprs (d :: ds))).1 (doEval E s (.exprs (d :: ds))).2 := by
  show Runs E s (d :: ds) (runAll E s (d :: ds)).1 (runAll E s (d :: ds)).2
  generalize d :: ds = l
  induction l generalizing s with
  | nil => exact .done
  | cons d ds ih =>
    rw [runAll]
    cases h : E s d with
    | value t s' => exact .value h (ih s')
    | unspecified s' => exact .unspecified h (ih s')
    | error s' => exact .error h (ih s')
    | exits n => exact .exits h

/-- C112: a file that cannot be read, or that is not correct Scheme text, prints no value and fails with status 1; nothing of it is evaluated. -/
theorem c112_unreadable (E : Eval σ) (s : σ) (f : File) (h : ∀ d ds, f ≠ .exprs (d :: ds)) : doEval E s f = ([], 1) := by
  match f with
  | .unreadable => rfl
  | .syntaxError => rfl
  | .exprs [] => rfl
  | .exprs (d :: ds) => exact absurd rfl (h d ds)

/-- C112 (violation): a script whose expressions all raise errors prints nothing and succeeds with status 0. -/
theorem c112_error_counterexample (E : Eval σ) (hE : ∀ s d, ∃ s', E s d = .error s') (s : σ) (d : D) (ds : List D) :
    doEval E s (.exprs (d :: ds)) = ([], 0) := by
  show runAll E s (d :: ds) = _
  generalize d :: ds = l
  induction l generalizing s with
  | nil => rfl
  | cons d ds ih =>
    obtain ⟨s', h⟩ := hE s d
    rw [runAll, h]
    exact ih s'

/-- C112 (violation): the documented switches `-v` and `--version` are taken as the name of a file to be evaluated; a file without
expressions is reported as unreadable with status 1. -/
theorem c112_version_counterexample : main ["-v"] = .run "-v" false ∧ main ["--version"] = .run "--version" false ∧
    ∀ (E : Eval σ) (s : σ), doEval E s (.exprs []) = ([], 1) := ⟨by decide +kernel, by decide +kernel, fun _ _ => rfl⟩

/-- C112: `(exit n)` for `n` from 0 to 255 ends the process with that status, `(exit)` with 0; what is no number is a Scheme error. -/
theorem c112_exit_partial (n : Nat) (h : n < 256) : exit (.num n) = .status n ∧ exit (.flo n) = .status n ∧ exit .none = .status 0 ∧
    exit .other = .schemeError := by
  have e : ((n : Int) + 2 ^ 31) % 2 ^ 32 - 2 ^ 31 = n := by omega
  have e2 : exitStatus (n : Int) = n := by simp only [exitStatus]; omega
  refine ⟨?_, ?_, rfl, rfl⟩
  · show ExitRes.status (exitStatus _) = _
    rw [e, e2]
  · have : (-2 ^ 31 : Int) ≤ n ∧ (n : Int) < 2 ^ 31 := by omega
    rw [exit, if_pos this, e2]

/-- C112 (violation): other statuses are truncated, so that a failure can look like success; a float out of range is undefined behaviour. -/
theorem c112_exit_counterexample : exit (.num 256) = .status 0 ∧ exit (.num (2 ^ 40)) = .status 0 ∧ exit (.flo (2 ^ 31)) = .ub := by decide +kernel

/-- Concrete command lines. -/
example : main ["--debug", "-s", "-h"] = .run "-h" true ∧ main ["a.scm", "--debug"] = .run "a.scm" true ∧ main ["a", "b", "-h"] = .error false ∧
    main ["a", "-h", "b"] = .help := by decide +kernel

example : ∀ o ∈ [Opt.debug, Opt.script "-h"], o.Ok ∧ o.isHelp = false := by
  intro o ho
  simp only [List.mem_cons, List.not_mem_nil, or_false] at ho
  rcases ho with rfl | rfl <;> exact ⟨trivial, rfl⟩

/-- A run of three expressions, the second of which fails. -/
example : doEval (σ := Nat) (fun n d => if d = .num 2 then .error (n + 1) else .value (intText n) (n + 1)) 0 (.exprs [.num 1, .num 2, .num 3]) =
    ([intText 0, intText 2], 0) := by decide +kernel

end Pscm.Cli

import Verif.PortRead
/-!
# C80: `read` on a port

`left p` are the bytes a port still has to deliver (C78).  `Bal`, `Flat`, `Lead` and `TameChars` are defined in `PortRead`: text with balanced
parentheses, text of an atom, white space and comments, data without the characters `(`, `)`, `"` and carriage return as character objects.
-/
namespace Pscm
open Port Rd Rd.Spec
variable {F : FloIO}

/-- A parenthesised expression of at most 4095 bytes in which only string literals may contain unbalanced parentheses: `read` parses exactly
its text, and leaves the port just behind it. -/
theorem c80_balanced_partial {p : In} {w pre s rest : Bytes} (ho : p.closed = false) (hl : left p = w ++ (pre ++ 40 :: (s ++ 41 :: rest)))
    (hw : Lead w) (hp : pre = [] ∨ pre = [35] ∨ pre = [39] ∨ pre = [96]) (hs : Bal s) (hlen : pre.length + s.length + 2 ≤ 4095) :
    ∃ p', readExpr F p = (some (parse F (pre ++ 40 :: (s ++ [41]))), p') ∧ left p' = rest ∧ p'.closed = false := by
  have hf : Flat pre := by
    rcases hp with rfl | rfl | rfl | rfl
    · exact .nil
    · exact .plain (by decide) .nil
    · exact .plain (by decide) .nil
    · exact .plain (by decide) .nil
  refine readExpr_text ho hl hw ?_ (collect_list hf hs hlen) ⟨pre ++ 40 :: (s ++ [41]), by simp⟩
  rcases hp with rfl | rfl | rfl | rfl
  · exact ⟨40, _, rfl, by decide, by decide⟩
  · exact ⟨35, _, rfl, by decide, by decide⟩
  · exact ⟨39, _, rfl, by decide, by decide⟩
  · exact ⟨96, _, rfl, by decide, by decide⟩

/-- A written datum of fewer than 4095 bytes that is followed by white space or the end of the text is read back; the port is left
behind it or behind the one white space character that follows it. -/
theorem c80_written_partial {p : In} {w rest : Bytes} {d : D} (ho : p.closed = false) (hl : left p = w ++ (print F true d ++ rest)) (hw : Lead w)
    (hr : Readable .datum d) (ht : TameChars d) (hlen : (print F true d).length < 4095)
    (hrest : rest = [] ∨ ∃ c t, rest = c :: t ∧ c ∈ [32, 9, 10, 13]) :
    ∃ d' p', readExpr F p = (some (.ok d' []), p') ∧ norm d' = norm d ∧ (left p' = rest ∨ left p' = rest.tail) ∧ p'.closed = false := by
  obtain ⟨d', hd, hn⟩ := c67_roundtrip_partial (F := F) hr
  obtain ⟨c, t, hst, h1, h2, _⟩ := pr_start (F := F) d ⟨false, false⟩ hr
  have hstart : ∃ c' t', print F true d ++ rest = c' :: t' ∧ isSpace c' = false ∧ c' ≠ 59 := ⟨c, t ++ rest, by unfold print; rw [hst]; rfl, h1, h2⟩
  rcases print_shape (F := F) hr ht with ⟨pre, s, hp, hs, he⟩ | hflat
  · have hlen' : pre.length + s.length + 2 ≤ 4095 := by rw [he] at hlen; simp at hlen; omega
    have hc : collect 0 0 false false (print F true d ++ rest) = .text (print F true d) rest := by
      rw [he]
      simpa using collect_list (rest := rest) hp hs hlen'
    obtain ⟨p', h1, h2, h3⟩ := readExpr_text (F := F) ho hl hw hstart hc (List.suffix_append _ _)
    exact ⟨d', p', by rw [h1, hd], hn, .inl h2, h3⟩
  · obtain ⟨p', h1, h2, h3⟩ := readExpr_text (F := F) ho hl hw hstart (collect_atom hflat hlen hrest)
      ((List.tail_suffix _).trans (List.suffix_append _ _))
    exact ⟨d', p', by rw [h1, hd], hn, .inr h2, h3⟩

/-- `read` called `n` times. -/
def reads (F : FloIO) : Nat → In → List (Option R)
  | 0, _ => []
  | n + 1, p => (readExpr F p).1 :: reads F n (readExpr F p).2

/-- The texts of some data, each followed by a white space character. -/
def spaced (F : FloIO) (sep : UInt8) : List D → Bytes
  | [] => []
  | d :: ds => print F true d ++ sep :: spaced F sep ds

/-- Data written to a text one after the other are read back in order, and then there is the end of file for ever. -/
theorem c80_sequence_partial (sep : UInt8) (hsep : sep ∈ [32, 9, 10, 13]) (ds : List D)
    (h : ∀ d ∈ ds, Readable .datum d ∧ TameChars d ∧ (print F true d).length < 4095) (k : Nat) :
    ∃ ds' : List D, ds'.map norm = ds.map norm ∧
      reads F (ds.length + k) (openIn (spaced F sep ds)) = ds'.map (fun d => some (.ok d [])) ++ List.replicate k none := by
  have hlead : ∀ w : Bytes, w = [] ∨ w = [sep] → Lead w := by
    have : sep ∈ ([32, 9, 10, 11, 12, 13] : List UInt8) := by
      simp only [List.mem_cons, List.not_mem_nil, or_false] at hsep
      rcases hsep with rfl | rfl | rfl | rfl <;> decide
    rintro w (rfl | rfl)
    · exact .nil
    · exact .space this .nil
  have hend : ∀ (k : Nat) (p : In) (w : Bytes), (w = [] ∨ w = [sep]) → p.closed = false → left p = w → reads F k p = List.replicate k none := by
    intro k
    induction k with
    | zero => intro p w _ _ _; rfl
    | succ k ih =>
      intro p w hw ho hl
      have hs : skipLead false w = [] := by
        have := skipLead_lead (hlead w hw) []
        simpa [skipLead] using this
      obtain ⟨p', e1, e2, e3⟩ := readExpr_end (F := F) ho hl hs
      rw [reads, e1, ih p' [] (.inl rfl) e3 e2, List.replicate_succ]
  have key : ∀ (ds : List D), (∀ d ∈ ds, Readable .datum d ∧ TameChars d ∧ (print F true d).length < 4095) → ∀ (p : In) (w : Bytes),
      (w = [] ∨ w = [sep]) → p.closed = false → left p = w ++ spaced F sep ds →
      ∃ ds' : List D, ds'.map norm = ds.map norm ∧ reads F (ds.length + k) p = ds'.map (fun d => some (.ok d [])) ++ List.replicate k none := by
    intro ds
    induction ds with
    | nil =>
      intro _ p w hw ho hl
      refine ⟨[], rfl, ?_⟩
      rw [List.length_nil, Nat.zero_add]
      exact hend k p w hw ho (by simpa [spaced] using hl)
    | cons d ds ih =>
      intro h p w hw ho hl
      obtain ⟨h1, h2, h3⟩ := h d (.head _)
      obtain ⟨d', p', e1, e2, e3, e4⟩ := c80_written_partial (F := F) (rest := sep :: spaced F sep ds) ho hl (hlead w hw) h1 h2 h3 (.inr ⟨_, _, rfl, hsep⟩)
      have : ∃ w', (w' = [] ∨ w' = [sep]) ∧ left p' = w' ++ spaced F sep ds := by
        rcases e3 with e3 | e3
        · exact ⟨[sep], .inr rfl, e3⟩
        · exact ⟨[], .inl rfl, e3⟩
      obtain ⟨w', hw', hl'⟩ := this
      obtain ⟨ds', g1, g2⟩ := ih (fun d hd => h d (.tail _ hd)) p' w' hw' e4 hl'
      refine ⟨d' :: ds', by simp [e2, g1], ?_⟩
      rw [show (d :: ds).length + k = ds.length + k + 1 by simp; omega, reads, e1, g2]
      rfl
  exact key ds h (openIn (spaced F sep ds)) [] (.inl rfl) rfl (by simp [left, openIn])

/-! ## Where `read` fails -/

/-- A symbol of 4096 characters is delivered in two pieces. -/
theorem c80_long_counterexample :
    reads Demo.F0 2 (openIn (List.replicate 4096 97)) = [some (.ok (.sym (List.replicate 4095 97)) []), some (.ok (.sym [97]) [])] ∧
    parseExpr Demo.F0 (List.replicate 4096 97) = .ok (.sym (List.replicate 4096 97)) [] := by
  have hmem : ∀ n, ∀ c ∈ List.replicate n (97 : UInt8), c = 97 := fun n c hc => (List.mem_replicate.1 hc).2
  have hok : ∀ n, 0 < n → SymOk (List.replicate n 97) := fun n hn => Demo.symOk_name (by cases n <;> simp_all [List.replicate_succ])
    fun c hc => by rw [hmem n c hc]; exact .inr (by decide)
  have hflat : ∀ n, Flat (List.replicate n 97) := fun n => .of_mem fun c hc => by rw [hmem n c hc]; decide
  have hpr : ∀ n, 0 < n → print Demo.F0 true (.sym (List.replicate n 97)) = List.replicate n 97 := fun n hn => (symOk_cstr (hok n hn)).2.2
  have hparse : ∀ n, 0 < n → parse Demo.F0 (List.replicate n 97) = .ok (.sym (List.replicate n 97)) [] := fun n hn => by
    have := c67_exact_partial (F := Demo.F0) (d := .sym (List.replicate n 97)) (hok n hn) trivial
    rwa [hpr n hn] at this
  have hstart : ∀ n, ∃ c t, List.replicate (n + 1) (97 : UInt8) = c :: t ∧ isSpace c = false ∧ c ≠ 59 := fun n => ⟨97, _, List.replicate_succ, by decide, by decide⟩
  constructor
  · have hc : collect 0 0 false false (List.replicate 4096 97) = .text (List.replicate 4095 97) [97] := by
      rw [show (4096 : Nat) = 4095 + 1 from rfl, List.replicate_succ', collect_flat (hflat 4095) _ _ (by rw [List.length_replicate]; decide),
        List.length_replicate, collect, if_neg (by decide)]
      show Got.text (List.replicate 4095 97 ++ []) [97] = _
      rw [List.append_nil]
    obtain ⟨p1, e1, e2, e3⟩ := readExpr_text (F := Demo.F0) (p := openIn (List.replicate 4096 97)) (w := []) rfl rfl .nil (hstart 4095) hc
      ⟨List.replicate 4095 97, (List.replicate_succ' (n := 4095)).symm⟩
    have hc2 : collect 0 0 false false [97] = .text [97] [] := by decide
    obtain ⟨p2, g1, _, _⟩ := readExpr_text (F := Demo.F0) (p := p1) (w := []) e3 e2 .nil ⟨97, [], rfl, by decide, by decide⟩ hc2 (List.nil_suffix)
    rw [reads, reads, reads, e1, g1, hparse 4095 (by decide), show parse Demo.F0 [97] = .ok (.sym [97]) [] from hparse 1 (by decide)]
  · have := (back (F := Demo.F0) (.sym (List.replicate 4096 97))).1 (hok _ (by decide)) ⟨false, false⟩ [] (by decide)
    rw [parseExpr_lim]
    have hp := hpr 4096 (by decide)
    unfold print at hp
    rw [hp, List.append_nil] at this
    exact this

/-- After the character `#\(` the rest of the text is taken for a list, and lost: `read` returns the end-of-file object. -/
theorem c80_char_counterexample : reads Demo.F0 1 (openIn (asc "#\\( x")) = [none] ∧ parseExpr Demo.F0 (asc "#\\( x") = .ok (.chr 40) (asc " x") := by
  decide +kernel

/-- A parenthesis in a comment inside a list ends the expression: an error. -/
theorem c80_comment_counterexample : reads Demo.F0 1 (openIn (asc "(a ; )\nb)")) = [some .err] ∧
    parseExpr Demo.F0 (asc "(a ; )\nb)") = .ok (.pair (.sym [97]) (.pair (.sym [98]) .nil)) [] := by
  decide +kernel

/-- An atom directly before a list, or two string literals side by side: an error. -/
theorem c80_adjacent_counterexample : reads Demo.F0 1 (openIn (asc "a(b)")) = [some .err] ∧
    parseExpr Demo.F0 (asc "a(b)") = .ok (.sym [97]) (asc "(b)") ∧ reads Demo.F0 1 (openIn (asc "\"a\"\"b\"")) = [some .err] ∧
    parseExpr Demo.F0 (asc "\"a\"\"b\"") = .ok (.str [97]) (asc "\"b\"") := by
  decide +kernel

/-- White space after a quotation mark: an error. -/
theorem c80_quote_counterexample : reads Demo.F0 1 (openIn (asc "' x")) = [some .err] ∧
    parseExpr Demo.F0 (asc "' x") = .ok (form "quote" (.sym [120])) [] := by
  decide +kernel

/-- The theorems apply to ordinary data. -/
example : reads Demo.F0 4 (openIn (asc "; two data\n (a \"(\" . 1) #(b)\nc")) =
    [some (.ok (.pair (.sym [97]) (.pair (.str [40]) (.dot (.num 1)))) []), some (.ok (.vec (.pair (.sym [98]) .nil)) []), some (.ok (.sym [99]) []), none] := by
  decide +kernel

example : Bal (asc "a \"(\" . 1") ∧ Lead (asc "; two data\n ") :=
  ⟨show Bal ([97, 32, 34, 40, 34, 32, 46, 32, 49]) from
    .plain (by decide) (.plain (by decide) (Bal.str (b := [40]) (t := [32, 46, 32, 49]) (.chr (by decide) (by decide) .nil)
      (.plain (by decide) (.plain (by decide) (.plain (by decide) (.plain (by decide) .nil)))))),
   Lead.comment (t := asc " two data") (e := 10) (w := [32]) (by decide +kernel) (by decide) (.space (by decide) .nil)⟩

end Pscm

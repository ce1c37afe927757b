import Verif.Lemmas.JsonText
import Verif.Lemmas.Spelling
/-!
# C46: JSON text output is compact and lossless

Proved for all JSON values, floats included: about the text of a finite float the theorems assume `FloatIO.Faithful`, that is,
`float.__repr__` writes a JSON number with fraction or exponent which `float` reads back.  Values without floats need no assumption
(`C46_no_floats`).
-/
namespace Verif

/-- A value without floats satisfies the assumption on the text of floats. -/
theorem C46_no_floats (io : FloatIO) (j : Json) (h : ∀ f, ¬ Json.HasFloat f j) : io.FaithfulOn j :=
  fun neg m e hf => absurd hf (h (.fin neg m e))

/-- Reading the text, with or without a line break after it, gives back the value. -/
theorem loads_dumped (io : FloatIO) (j : Json) (s w : Str) (hw : j.Wf) (hio : io.FaithfulOn j)
    (h : jsonDumpString io j = .ok s) (hws : w = [] ∨ w = ['\n']) : jsonLoads io (s ++ w) = .ok j := by
  obtain ⟨c, t, e, hc, _⟩ := encJson_head io j s hio h
  have hd : Delim w := by
    rcases hws with rfl | rfl
    · intro c hc; simp at hc
    · intro c hc; simp at hc; exact Or.inr (Or.inr (Or.inr hc.symm))
  have hs := scanVal_enc io j s w ((s ++ w).length + 1) hw hio h hd (by simp only [List.length_append]; omega)
  have hclean := clean_encJson io j s hio h
  have hbom : (s ++ w).head? ≠ some (Char.ofNat 65279) := by
    subst e
    simp only [List.cons_append, List.head?_cons, ne_eq, Option.some.injEq]
    rintro rfl
    exact absurd (hclean.1 rfl).2 (by decide)
  have hskip : skipWs w = [] := by rcases hws with rfl | rfl <;> decide
  unfold jsonLoads
  rw [if_neg hbom]
  subst e
  rw [List.cons_append, skipWs_cons hc, ← List.cons_append, hs]
  simp [hskip]

/-- C46: reading the text gives back the value. -/
theorem C46_lossless (io : FloatIO) (j : Json) (s : Str) (hw : j.Wf) (hio : io.FaithfulOn j)
    (h : jsonDumpString io j = .ok s) : jsonLoads io s = .ok j := by
  have := loads_dumped io j s [] hw hio h (.inl rfl)
  rwa [List.append_nil] at this

/-- C46: two values with the same text are equal. -/
theorem C46_injective (io : FloatIO) (j k : Json) (s : Str) (hj : j.Wf) (hk : k.Wf) (hioj : io.FaithfulOn j)
    (hiok : io.FaithfulOn k) (h : jsonDumpString io j = .ok s) (h' : jsonDumpString io k = .ok s) : j = k := by
  have h1 := C46_lossless io j s hj hioj h
  have h2 := C46_lossless io k s hk hiok h'
  rw [h1] at h2
  exact Except.ok.inj h2

/-- C46: every character outside string literals is a visible ASCII character, so there is no whitespace, and all literals are
closed. -/
theorem C46_compact (io : FloatIO) (j : Json) (s : Str) (hio : io.FaithfulOn j) (h : jsonDumpString io j = .ok s) :
    (∀ c, OutsideLiterals s c → isJsonWs c = false ∧ 32 < c.toNat ∧ c.toNat < 127) ∧ TextMode.out.after s = .out := by
  have hc := clean_encJson io j s hio h
  refine ⟨?_, hc.after⟩
  rintro c ⟨a, b, e, ha, _⟩
  have := hc.outside e ha
  refine ⟨?_, this⟩
  cases hw : isJsonWs c with
  | false => rfl
  | true =>
    simp only [isJsonWs, Bool.or_eq_true, decide_eq_true_eq] at hw
    rcases hw with ((rfl | rfl) | rfl) | rfl <;> exact absurd this.1 (by decide)

/-- C46: the text contains no control character, inside or outside literals; in particular it is a single line. -/
theorem C46_no_control (io : FloatIO) (j : Json) (s : Str) (hio : io.FaithfulOn j) (h : jsonDumpString io j = .ok s) :
    ∀ c ∈ s, 32 ≤ c.toNat :=
  (clean_encJson io j s hio h).visible

/-- C46: text in any script is written as it is (`ensure_ascii=False`): only quotes, backslashes and control characters are
escaped. -/
theorem C46_verbatim (io : FloatIO) (x : Str) (h : ∀ c ∈ x, c ≠ '"' ∧ c ≠ '\\' ∧ 32 ≤ c.toNat) :
    jsonDumpString io (.str x) = .ok ('"' :: (x ++ ['"'])) := by
  have : x.flatMap escChar = x := by
    induction x with
    | nil => rfl
    | cons c x ih =>
      have hc := h c (by simp)
      have he : escChar c = [c] := by
        unfold escChar
        rw [if_neg hc.2.1, if_neg hc.1, if_neg (by omega), if_neg (by omega), if_neg (by omega), if_neg (by omega),
          if_neg (by omega), if_neg (by omega)]
      simp [List.flatMap_cons, he, ih (fun d hd => h d (by simp [hd]))]
  simp only [jsonDumpString, encJson, encodeStr, this]

/-- C46: writing succeeds exactly if every integer in the value has at most 4300 digits, and raises `ValueError` otherwise. -/
theorem C46_raises_iff (io : FloatIO) (j : Json) :
    ((∃ s, jsonDumpString io j = .ok s) ↔ j.ShortInts) ∧ (jsonDumpString io j = .error .valueError ↔ ¬ j.ShortInts) := by
  rcases encJson_total io j with ⟨h, s, e⟩ | ⟨h, e⟩
  · refine ⟨⟨fun _ => h, fun _ => ⟨s, e⟩⟩, ⟨fun h' => ?_, fun h' => absurd h h'⟩⟩
    rw [jsonDumpString, e] at h'
    exact nomatch h'
  · refine ⟨⟨?_, fun h' => absurd h' h⟩, ⟨fun _ => h, fun _ => e⟩⟩
    rintro ⟨s, e'⟩
    rw [jsonDumpString, e] at e'
    exact nomatch e'

/-- C46: `json_dump` appends to the file exactly the text that `json_dump_string` returns and a line break, and so raises in
the same cases. -/
theorem C46_file (io : FloatIO) (j : Json) (file out : Str) :
    jsonDump io j file = .ok out ↔ ∃ s, jsonDumpString io j = .ok s ∧ out = file ++ s ++ ['\n'] := by
  unfold jsonDump jsonDumpString
  cases encJson io j with
  | error e => simp
  | ok s => simp [eq_comm]

/-- C46: reading a file that `json_dump` has written gives back the value: the line break does no harm. -/
theorem C46_file_lossless (io : FloatIO) (j : Json) (out : Str) (hw : j.Wf) (hio : io.FaithfulOn j)
    (h : jsonDump io j [] = .ok out) : jsonLoads io out = .ok j := by
  obtain ⟨s, hs, rfl⟩ := (C46_file io j [] out).1 h
  exact loads_dumped io j s ['\n'] hw hio hs (.inr rfl)

/-- C46: the file is one line of text: the only line break, and the only control character, is the last character. -/
theorem C46_file_line (io : FloatIO) (j : Json) (out : Str) (hio : io.FaithfulOn j) (h : jsonDump io j [] = .ok out) :
    ∃ s, out = s ++ ['\n'] ∧ ∀ c ∈ s, 32 ≤ c.toNat := by
  obtain ⟨s, hs, rfl⟩ := (C46_file io j [] out).1 h
  exact ⟨s, rfl, C46_no_control io j s hio hs⟩

theorem isJsonWs_iff (c : Char) : isJsonWs c = true ↔ c ∈ [' ', '\t', '\n', '\r'] := by
  simp [isJsonWs, or_assoc]

/-- C46: what the reader takes for a string: a literal in which each character is spelt as it is, by a short escape, by four
hexadecimal digits, or by a surrogate pair, with whitespace around it.  So every spelling another program chooses for a string is
read as that string, and nothing else is. -/
theorem C46_literal_iff (io : FloatIO) (u s : Str) :
    jsonLoads io u = .ok (.str s) ↔
      ∃ w t w', u = w ++ '"' :: (t ++ '"' :: w') ∧ (∀ c ∈ w ++ w', c ∈ [' ', '\t', '\n', '\r']) ∧ Spelling s t := by
  rw [loads_str_iff]
  constructor
  · rintro ⟨w, t, w', e, h1, h2, h3⟩
    refine ⟨w, t, w', e, fun c hc => (isJsonWs_iff c).1 ?_, h3⟩
    rcases List.mem_append.1 hc with hc | hc
    · exact h1 c hc
    · exact h2 c hc
  · rintro ⟨w, t, w', e, h1, h3⟩
    exact ⟨w, t, w', e, fun c hc => (isJsonWs_iff c).2 (h1 c (by simp [hc])),
      fun c hc => (isJsonWs_iff c).2 (h1 c (by simp [hc])), h3⟩

/-! ### Examples -/

/-- A spelling with a surrogate pair in mixed case, a short escape and a plain character. -/
example : Spelling [Char.ofNat 0x1f600, '/', 'é'] c!"\\uD83d\\udE00\\/é" :=
  .cons (t := c!"\\uD83d\\udE00") (.pair (h := c!"D83d") (l := c!"dE00") (by decide) ⟨rfl, by decide, by decide⟩ ⟨rfl, by decide, by decide⟩)
    (.cons .slash (.cons (t := c!"é") (.plain (by decide) (by decide) (by decide)) .nil))

/-- A table of two floats in place of the runtime. -/
def tinyIO : FloatIO where
  repr f := if f = .fin false 3 (-1) then c!"1.5" else c!"1e+16"
  read s := if s = c!"1.5" then .fin false 3 (-1) else .fin false 152587890625 16

/-- A value with all kinds of JSON, nested. -/
def tinyDoc : Json :=
  .obj [(c!"a \"b\"", .arr [.int (-12), .null, .bool true, .float (.fin false 3 (-1))]), (c!"é\n\\", .obj []),
    (c!"x", .arr []), (c!"\x01", .float (.inf true))]

example : jsonDumpString tinyIO tinyDoc =
    .ok c!"{\"a \\\"b\\\"\":[-12,null,true,1.5],\"é\\n\\\\\":{},\"x\":[],\"\\u0001\":-Infinity}" := by decide +kernel

theorem tinyDoc_wf : tinyDoc.Wf := by
  refine .obj (by decide) ?_
  intro kv hkv
  simp only [List.mem_cons, List.not_mem_nil, or_false] at hkv
  rcases hkv with rfl | rfl | rfl | rfl
  · refine .arr ?_
    intro x hx
    simp only [List.mem_cons, List.not_mem_nil, or_false] at hx
    rcases hx with rfl | rfl | rfl | rfl
    · exact .int
    · exact .null
    · exact .bool
    · exact .float
  · exact .obj (by simp) (by simp)
  · exact .arr (by simp)
  · exact .float

theorem tinyDoc_faithful : tinyIO.FaithfulOn tinyDoc := by
  intro neg m e h
  have : PyFloat.fin neg m e = .fin false 3 (-1) := by
    cases h with
    | obj hkv h =>
      simp only [List.mem_cons, List.not_mem_nil, or_false] at hkv
      rcases hkv with rfl | rfl | rfl | rfl
      · cases h with
        | arr hx h =>
          simp only [List.mem_cons, List.not_mem_nil, or_false] at hx
          rcases hx with rfl | rfl | rfl | rfl <;> cases h
          rfl
      · cases h with
        | obj hx h => simp at hx
      · cases h with
        | arr hx h => simp at hx
      · cases h
  rw [this]
  refine ⟨⟨false, c!"1", c!".5", [], by decide, by decide, Or.inr ⟨c!"5", by decide, by decide, by decide⟩, Or.inl rfl, by decide⟩,
    by decide⟩

/-- The premises of the theorems are met by a nested value with floats and characters that need escapes. -/
example : tinyDoc.Wf ∧ tinyIO.FaithfulOn tinyDoc ∧ ∃ s, jsonDumpString tinyIO tinyDoc = .ok s :=
  ⟨tinyDoc_wf, tinyDoc_faithful, _, rfl⟩

/-- What `json_dump` writes to a file that already has a line. -/
example : jsonDump tinyIO (.arr [.int 1, .null]) c!"0\n" = .ok c!"0\n[1,null]\n" := by decide +kernel

/-- A text with whitespace outside literals is told apart from a compact one. -/
example : OutsideLiterals c!"[1, 2]" ' ' := ⟨c!"[1,", c!"2]", by decide, by decide, by decide⟩

/-- A space inside a literal does not count. -/
example : ∀ c, OutsideLiterals c!"\"a b\"" c → c ≠ ' ' := by
  rintro c ⟨a, b, e, ha, hc⟩ rfl
  match a, e with
  | [], e => simp at e
  | [x], e => simp at e
  | [x, y], e =>
    simp at e
    obtain ⟨rfl, rfl, _⟩ := e
    exact absurd ha (by decide)
  | [x, y, z], e => simp at e
  | [x, y, z, w], e => simp at e
  | x :: y :: z :: w :: v :: r, e => simp at e

/-- An integer that is too long. -/
example : ¬ (Json.arr [.int (10 ^ 4300)]).ShortInts := fun h => absurd (h (10 ^ 4300) (.arr (by simp) .int)) (by simp [Int.natAbs_pow])

/-- The reader also accepts text that `json_dump_string` never writes: whitespace and surrogate pairs. -/
example : (match jsonLoads tinyIO c!" { \"k\" : [ 1 , \"\\ud83d\\ude00\" ] } " with
    | .ok (.obj [(k, .arr [.int 1, .str s])]) => k == c!"k" && s == [Char.ofNat 0x1f600]
    | _ => false) = true := by decide +kernel

/-- The reader refuses what is not JSON. -/
example : (match jsonLoads tinyIO c!"[1,]" with | .error .valueError => true | _ => false) = true := by decide +kernel
example : (match jsonLoads tinyIO c!"{'a':1}" with | .error .valueError => true | _ => false) = true := by decide +kernel
example : (match jsonLoads tinyIO c!"01" with | .error .valueError => true | _ => false) = true := by decide +kernel

end Verif

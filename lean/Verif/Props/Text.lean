import Verif.TextWriting
import Verif.TextAscii
import Verif.TextEval
set_option linter.unusedSimpArgs false
/-!
# C35-C39: Ion text

What the text reader reads, and that what the text writer writes is read back.  The grammar is in `TextSpec.lean`; it
mentions neither the writer nor the reader.
-/
namespace Ion.Text
open Ion Ion.TextSpec
open Ion.TextReader (byteUnits strUnits strBytes)
open Ion.TextWriter (runText checkIndent Ascii)

/-- The bytes with these numbers. -/
def toBytes (t : List Nat) : Bytes := t.map UInt8.ofNat

/-- A division of a text into non-empty pieces. -/
def Pieces (ps : List (List Nat)) (t : List Nat) : Prop := ps.flatten = t ∧ ∀ p ∈ ps, p ≠ []

/-- `blocking_reader(text_reader(), input)`, sent `n` times `NEXT`, where `input.read` returns these pieces as `bytes`. -/
def readBytes (F : FloatText) (ps : List (List Nat)) (n : Nat) : List (Except PyErr IonEvent) :=
  Blocking.run (TextReader.send F byteUnits) IonEvent.eventType ION_STREAM_END_EVENT (.active .fresh (ps.map toBytes)) (List.replicate n .next)

/-- The same, where `input.read` returns the pieces as `str`. -/
def readStr (F : FloatText) (ps : List (List Nat)) (n : Nat) : List (Except PyErr IonEvent) :=
  Blocking.run (TextReader.send F strUnits) IonEvent.eventType ION_STREAM_END_EVENT (.active .fresh (ps.map strBytes)) (List.replicate n .next)

/-- Whoever reads this text, in whatever pieces, as `bytes` or `str`, gets these events and then `STREAM_END` (`none`) or an
exception. -/
def ReadsAs (F : FloatText) (t : List Nat) (es : List IonEvent) (o : Option PyErr) : Prop :=
  ∀ ps, Pieces ps t → readBytes F ps (es.length + 1) = es.map .ok ++ [TextReader.lastly ION_STREAM_END_EVENT o] ∧
    readStr F ps (es.length + 1) = es.map .ok ++ [TextReader.lastly ION_STREAM_END_EVENT o]

/-! ## Pieces -/

theorem units_bytes {t : List Nat} (h : ∀ c ∈ t, c < 256) : byteUnits (toBytes t) = t := by
  simp only [byteUnits, toBytes, List.map_map]
  conv => rhs; rw [← List.map_id t]
  refine List.map_congr_left fun c hc => ?_
  have := h c hc
  simp only [Function.comp_apply, UInt8.toNat_ofNat', id_eq]
  omega

theorem units_str : ∀ {t : List Nat}, (∀ c ∈ t, c < 2 ^ 24) → strUnits (strBytes t) = t := by
  intro t
  induction t with
  | nil => intro _; rfl
  | cons c t ih =>
    intro h
    have hc := h c (by simp)
    have : strBytes (c :: t) = UInt8.ofNat (c / 65536) :: UInt8.ofNat (c / 256 % 256) :: UInt8.ofNat (c % 256) :: strBytes t := rfl
    rw [this, strUnits, ih fun d hd => h d (by simp [hd])]
    simp only [UInt8.toNat_ofNat', List.cons.injEq, and_true]
    omega

theorem flatMap_units {units : Bytes → List Nat} {f : List Nat → Bytes} : ∀ {ps : List (List Nat)}, (∀ p ∈ ps, units (f p) = p) → (ps.map f).flatMap units = ps.flatten := by
  intro ps
  induction ps with
  | nil => intro _; rfl
  | cons p ps ih =>
    intro h
    rw [List.map_cons, List.flatMap_cons, List.flatten_cons, h p (by simp), ih fun q hq => h q (by simp [hq])]

theorem run_of_answers {F : FloatText} {units : Bytes → List Nat} {f : List Nat → Bytes} {t : List Nat} {es : List IonEvent} {o : Option PyErr}
    (h : TextReader.Answers F {} t es o) {ps : List (List Nat)} (hp : Pieces ps t) (hu : ∀ p ∈ ps, units (f p) = p) :
    Blocking.run (TextReader.send F units) IonEvent.eventType ION_STREAM_END_EVENT (.active .fresh (ps.map f)) (List.replicate (es.length + 1) .next)
      = es.map .ok ++ [TextReader.lastly ION_STREAM_END_EVENT o] := by
  refine TextReader.reading_blocking _ (TextReader.reading_of_answers ?_ ?_)
  · intro d hd
    obtain ⟨p, hp', rfl⟩ := List.mem_map.1 hd
    rw [hu p hp']
    exact hp.2 p hp'
  · rw [flatMap_units hu, hp.1]
    exact h

theorem piece_bound {ps : List (List Nat)} {t : List Nat} (hp : Pieces ps t) {P : Nat → Prop} (h : ∀ c ∈ t, P c) : ∀ p ∈ ps, ∀ c ∈ p, P c := by
  intro p hp' c hc
  refine h c ?_
  rw [← hp.1]
  exact List.mem_flatten.2 ⟨p, hp', hc⟩

theorem reads_of_answers {F : FloatText} {t : List Nat} {es : List IonEvent} {o : Option PyErr} (ht : Ascii t) (h : TextReader.Answers F {} t es o) : ReadsAs F t es o := by
  intro ps hp
  refine ⟨run_of_answers h hp fun p hp' => units_bytes fun c hc => ?_, run_of_answers h hp fun p hp' => units_str fun c hc => ?_⟩
  · have := piece_bound hp ht p hp' c hc
    omega
  · have := piece_bound hp ht p hp' c hc
    omega

/-! ## Reading -/

/-- **C38**  (reading)  A document of the grammar, handed to the reader as `str` in whatever pieces, yields the events of the
values it denotes, and then the end of the stream. -/
theorem C38_reads_document_str (F : FloatText) (ws bs : List Nat) (items : List (Option (Spec.Node TSym))) (hws : IsTrivia ws) (hdoc : IsDoc F bs items)
    (hc : ∀ c ∈ ws ++ bs, c ≤ 0x10FFFF) (ps : List (List Nat)) (hp : Pieces ps (ws ++ bs)) :
    readStr F ps ((docEvents items).length + 1) = (docEvents items ++ [ION_STREAM_END_EVENT]).map .ok := by
  rw [List.map_append]
  refine run_of_answers (TextReader.answers_of_events (TextReader.doc_events hws hdoc)) hp fun p hp' => units_str fun c hc' => ?_
  have := piece_bound hp hc p hp' c hc'
  omega

/-- **C38**  (reading)  The same for `bytes` that are ASCII. -/
theorem C38_reads_document_bytes (F : FloatText) (ws bs : List Nat) (items : List (Option (Spec.Node TSym))) (hws : IsTrivia ws) (hdoc : IsDoc F bs items)
    (hc : ∀ c ∈ ws ++ bs, c < 128) (ps : List (List Nat)) (hp : Pieces ps (ws ++ bs)) :
    readBytes F ps ((docEvents items).length + 1) = (docEvents items ++ [ION_STREAM_END_EVENT]).map .ok := by
  rw [List.map_append]
  exact (reads_of_answers hc (TextReader.answers_of_events (TextReader.doc_events hws hdoc)) ps hp).1

/-! ## Writing and reading -/

theorem blank_ascii {t : List Nat} (h : IsBlank t) : Ascii t := by
  intro c hc
  have := h c hc
  simp only [IsSpace] at this
  omega

theorem space_ok {c : Nat} (h : IsSpace c) : TextWriter.isSpace c = true ∧ c < 256 := by
  simp only [IsSpace] at h
  constructor
  · simp only [TextWriter.isSpace, Bool.or_eq_true, Bool.and_eq_true, decide_eq_true_eq]
    omega
  · omega

/-- Any Ion whitespace is accepted as indent. -/
theorem indent_ok {indent : Option Text} (h : ∀ t, indent = some t → IsBlank t) : checkIndent indent = .ok indent := by
  cases indent with
  | none => rfl
  | some t =>
    have ht := h t rfl
    have h1 : t.all TextWriter.isSpace = true := List.all_eq_true.2 fun c hc => (space_ok (ht c hc)).1
    have h2 : t.all (· < 256) = true := List.all_eq_true.2 fun c hc => by simpa using (space_ok (ht c hc)).2
    unfold checkIndent
    simp only [h1, h2, if_true]

/-- **C38**  For any values, given with flushes and version markers in between, that text can express (`Given`), compact or
pretty-printed with any whitespace as indent: the text writer accepts all of it, and its output, read in whatever pieces,
yields the events of those values: the same trees, with the same field names, annotations, types and scalars.

Excluded by `Given`, because the code does not bring them back: symbols with a text like `$10` (`C36_sid_text`), symbols at
the top level that look like a version marker (`C36_version_marker_text`), NaNs with a payload, and timestamps as described
at `TextTime`. -/
theorem C38_written_text_reads_back_partial (F : FloatText) (hF : Faithful F) (indent : Option Text) (hi : ∀ t, indent = some t → IsBlank t)
    (evs : List IonEvent) (items : List (Option (Spec.Node TSym))) (hg : Given evs items) :
    ∃ ind out s, checkIndent indent = .ok ind ∧ runText F ind {} evs = (out, .ok s) ∧ s.frames = [] ∧ Ascii out ∧
      ReadsAs F out (docEvents items) none := by
  obtain ⟨ws, b, w, h1, h2, h3⟩ := TextWriter.given_doc hF hi hg
  have ha : Ascii (ws ++ b) := by
    have := TextWriter.ascii_run hF (ind := indent) (fun t ht => blank_ascii (hi t ht)) evs {}
    rw [h1] at this
    exact this
  exact ⟨indent, ws ++ b, ⟨[], w⟩, indent_ok hi, h1, rfl, ha, reads_of_answers ha (TextReader.answers_of_events (TextReader.doc_events (TextWriter.blank_trivia h2) h3))⟩

/-! ## Scalars one by one -/

/-- The event of a scalar, as a user gives it to a writer. -/
def scalarEvent (ty : IonType) (v : Option PyVal) : IonEvent := { eventType := .scalar, ionType := some ty, value := .ok v }

/-- The same, as a reader delivers it at the top level. -/
def readScalar (ty : IonType) (v : Option PyVal) : IonEvent := { eventType := .scalar, ionType := some ty, value := .ok v, depth := some 0 }

theorem scalar_run {F : FloatText} {ind : Option (List Nat)} {ty : IonType} {v : Option PyVal} {bs : List Nat} (h : TextWriter.serializeScalar F (scalarEvent ty v) = .ok bs) :
    runText F ind {} [scalarEvent ty v, ION_STREAM_END_EVENT] = (bs, .ok ⟨[], true⟩) := by
  have hE : ION_STREAM_END_EVENT.eventType = .streamEnd := rfl
  have h1 : TextWriter.step F ind {} (scalarEvent ty v) = ([], .ok ((.complete, bs), ⟨[], true⟩)) := by
    cases ind <;>
      simp [TextWriter.step, TextWriter.delimiterChunks, TextWriter.indentChunks, TextWriter.fieldChunks, TextWriter.annotationChunks, TextWriter.finish, TextWriter.State.written,
        TextWriter.State.setWritten, IonEventType.beginsValue, show (scalarEvent ty v).eventType = .scalar from rfl, show (scalarEvent ty v).annotations = [] from rfl, h]
  have h2 : ∃ w, TextWriter.step F ind ⟨[], true⟩ ION_STREAM_END_EVENT = ([], .ok ((w, []), ⟨[], true⟩)) := by
    cases ind <;>
      simp [TextWriter.step, TextWriter.delimiterChunks, TextWriter.indentChunks, TextWriter.fieldChunks, TextWriter.annotationChunks, TextWriter.finish, TextWriter.State.written,
        TextWriter.State.setWritten, IonEventType.beginsValue, hE]
  obtain ⟨w, h2⟩ := h2
  simp [runText, h1, h2]

theorem scalar_reads {F : FloatText} {bs : List Nat} {x : Spec.Scalar TSym} (ha : Ascii bs) (ht : IsScalarText F bs x) (hm : ¬ IsMarkerText bs) :
    ReadsAs F bs [readScalar x.ty (scalarValue x)] none := by
  have hv : IsValue F none ([] ++ ([] ++ bs)) (.scalar none [] x) := .scalar none [] [] bs none [] x (.none none (by simp)) .nil ht fun _ _ => hm
  have hd : IsDoc F (([] ++ ([] ++ bs)) ++ ([] ++ [])) [some (.scalar none [] x)] := .value _ [] [] _ [] hv TextWriter.gap_nil.last .nil
  have h := TextReader.answers_of_events (TextReader.doc_events (ws := []) .nil hd)
  simp only [List.nil_append, List.append_nil] at h
  exact reads_of_answers ha h

/-- **C35**  Any Unicode string that is written as text is read back as that string, in whatever pieces. -/
theorem C35_strings_round_trip (F : FloatText) (ind : Option (List Nat)) (t : Text) (ht : IsUnicode t) :
    ∃ out s, runText F ind {} [scalarEvent .string (some (.str t)), ION_STREAM_END_EVENT] = (out, .ok s) ∧ ReadsAs F out [readScalar .string (some (.str t))] none := by
  have h : TextWriter.serializeScalar F (scalarEvent .string (some (.str t))) = .ok (TextWriter.bytesText t (some 34) [] []) := by
    simp only [TextWriter.serializeScalar, scalarEvent, TextWriter.serializeValue]
    exact TextWriter.textOrError_unicode ht _ _
  have hg : IsScalarText F (TextWriter.bytesText t (some 34) [] []) (.string t) := by
    have := IsScalarText.string (F := F) _ _ (TextWriter.chars_text (.inl rfl) (clob := false) t ht (by simp))
    simpa [TextWriter.bytesText] using this
  refine ⟨_, _, scalar_run h, scalar_reads (x := .string t) ?_ hg ?_⟩
  · exact TextWriter.ascii_text (by intro c hc; simp only [Option.some.injEq] at hc; omega) .nil .nil
  · simp only [TextWriter.bytesText, Option.toList, List.nil_append, List.append_assoc, List.singleton_append, List.append_nil]
    exact TextWriter.not_marker (by omega)

/-- **C37**  Any integer that is written as text is read back. -/
theorem C37_ints_round_trip (F : FloatText) (ind : Option (List Nat)) (i : Int) :
    ∃ out s, runText F ind {} [scalarEvent .int (some (.int i)), ION_STREAM_END_EVENT] = (out, .ok s) ∧ ReadsAs F out [readScalar .int (some (.int i))] none := by
  have h : TextWriter.serializeScalar F (scalarEvent .int (some (.int i))) = .ok (intDigits i) := rfl
  refine ⟨_, _, scalar_run h, scalar_reads (x := .int i) (TextWriter.ascii_int i) (TextWriter.int_text F i) ?_⟩
  rintro ⟨a, b, h1, -⟩
  unfold intDigits at h1
  split at h1
  · simp [asc] at h1
  · have := (TextWriter.natDigits_spec i.natAbs).1 36 (by rw [h1]; simp [asc])
    simp [Digit] at this

/-- **C37**  Both booleans are read back. -/
theorem C37_bools_round_trip (F : FloatText) (ind : Option (List Nat)) (b : Bool) :
    ∃ out s, runText F ind {} [scalarEvent .bool (some (.bool b)), ION_STREAM_END_EVENT] = (out, .ok s) ∧ ReadsAs F out [readScalar .bool (some (.bool b))] none := by
  have h : TextWriter.serializeScalar F (scalarEvent .bool (some (.bool b))) = .ok (TextWriter.serializeBool b) := rfl
  refine ⟨_, _, scalar_run h, scalar_reads (x := .bool b) (by cases b <;> exact TextWriter.ascii_of_all (by decide)) (TextWriter.bool_text F b) ?_⟩
  cases b <;> exact TextWriter.not_marker (by decide)

/-- **C37**  The nulls of all 13 types are read back, with their type. -/
theorem C37_nulls_round_trip (F : FloatText) (ind : Option (List Nat)) (ty : IonType) :
    ∃ out s, runText F ind {} [scalarEvent ty none, ION_STREAM_END_EVENT] = (out, .ok s) ∧ ReadsAs F out [readScalar ty none] none := by
  have h : TextWriter.serializeScalar F (scalarEvent ty none) = .ok (TextWriter.nullName ty) := rfl
  refine ⟨_, _, scalar_run h, scalar_reads (x := .null ty) (TextWriter.ascii_null ty) (TextWriter.null_text F ty) ?_⟩
  cases ty <;> exact TextWriter.not_marker (by decide)

/-- **C39**  Any blob is written as `{{`, its base64 according to RFC 4648, and `}}`; and it is read back. -/
theorem C39_blobs_round_trip (F : FloatText) (ind : Option (List Nat)) (b : Bytes) :
    ∃ s, runText F ind {} [scalarEvent .blob (some (.bytes b)), ION_STREAM_END_EVENT] = (123 :: 123 :: (Base64.encode (b.map UInt8.toNat) ++ [125, 125]), .ok s) ∧
      ReadsAs F (123 :: 123 :: (Base64.encode (b.map UInt8.toNat) ++ [125, 125])) [readScalar .blob (some (.bytes b))] none := by
  have h : TextWriter.serializeScalar F (scalarEvent .blob (some (.bytes b))) = .ok (123 :: 123 :: (Base64.encode (b.map UInt8.toNat) ++ [125, 125])) := by
    simp only [TextWriter.serializeScalar, scalarEvent, TextWriter.serializeValue]
    rw [Base64.encode_eq _ (fun c hc => by have := (TextWriter.byteNums_unicode b).2 c hc; omega)]
    rfl
  refine ⟨_, scalar_run h, scalar_reads (x := .blob b) ?_ (.blob _ b (TextWriter.spaced_refl _)) (TextWriter.not_marker (by omega))⟩
  have := TextWriter.ascii_b64 b
  rw [Base64.encode_eq _ (fun c hc => by have := (TextWriter.byteNums_unicode b).2 c hc; omega)] at this
  exact .cons (by omega) (.cons (by omega) (this.append (TextWriter.ascii_of_all (by decide))))

/-- **C39**  Any clob is read back, too. -/
theorem C39_clobs_round_trip (F : FloatText) (ind : Option (List Nat)) (b : Bytes) :
    ∃ out s, runText F ind {} [scalarEvent .clob (some (.bytes b)), ION_STREAM_END_EVENT] = (out, .ok s) ∧ ReadsAs F out [readScalar .clob (some (.bytes b))] none := by
  have h : TextWriter.serializeScalar F (scalarEvent .clob (some (.bytes b))) = .ok (TextWriter.bytesText (TextWriter.byteNums b) (some 34) [123, 123] [125, 125]) := rfl
  have hg : IsScalarText F (TextWriter.bytesText (TextWriter.byteNums b) (some 34) [123, 123] [125, 125]) (.clob b) := by
    have := IsScalarText.clob (F := F) [] _ [] _ b (by simp [IsBlank]) (TextWriter.chars_text (.inl rfl) (clob := true) (TextWriter.byteNums b) (TextWriter.byteNums_unicode b).1
      (fun _ => (TextWriter.byteNums_unicode b).2)) (by simp [IsBlank]) rfl
    simpa [TextWriter.bytesText] using this
  refine ⟨_, _, scalar_run h, scalar_reads (x := .clob b) ?_ hg ?_⟩
  · exact TextWriter.ascii_text (by intro c hc; simp only [Option.some.injEq] at hc; omega) (TextWriter.print_of_all (by decide)) (TextWriter.print_of_all (by decide))
  · simp only [TextWriter.bytesText, Option.toList, List.cons_append, List.nil_append]
    exact TextWriter.not_marker (by omega)

/-! ## Symbols -/

/-- The token that a reader of text makes of a symbol with this text. -/
def textToken (t : Text) : SymbolToken := ⟨some t, none, none⟩

/-- A struct with one field, an annotated symbol: `{f: a::v}`. -/
def symbolEvents (f a : SymArg) (v : PyVal) : List IonEvent :=
  [{ eventType := .containerStart, ionType := some .struct },
   { eventType := .scalar, ionType := some .symbol, value := .ok (some v), fieldName := some f, annotations := [a] },
   { eventType := .containerEnd, ionType := some .struct },
   ION_STREAM_END_EVENT]

/-- The value of a symbol, as a user gives it: a `str` or a token. -/
def ValueText (v : PyVal) (t : Text) : Prop := v = .str t ∨ ∃ k, v = .sym k ∧ k.text = some t

theorem given_symbol {f a : SymArg} {v : PyVal} {tf ta tv : Text} (hf : argSym f = some (.text tf)) (ha : argSym a = some (.text ta)) (hv : ValueText v tv)
    (sf : SymSafe (.text tf)) (sa : SymSafe (.text ta)) (sv : SymSafe (.text tv)) :
    Given (symbolEvents f a v) [some (.cont none [] .struct [.scalar (some (.text tf)) [.text ta] (.symbol (.text tv))])] := by
  refine Given.values [{ eventType := .containerStart, ionType := some .struct }, _, _] [ION_STREAM_END_EVENT] [_] [] ?_ ?_ ?_ (.flush _ _ .nil)
  · rcases hv with rfl | ⟨k, rfl, hk⟩
    · simp [textValues, Spec.asToken, Spec.valuesOf, Spec.Tree.run, Spec.Tree.inStruct, Spec.Tree.empty, Spec.Tree.step, Spec.fieldOf, Spec.ctype, Spec.allSome, Spec.denote, hf, ha, tokSym]
    · simp [textValues, Spec.asToken, Spec.valuesOf, Spec.Tree.run, Spec.Tree.inStruct, Spec.Tree.empty, Spec.Tree.step, Spec.fieldOf, Spec.ctype, Spec.allSome, Spec.denote, hf, ha, tokSym, hk]
  · intro e he
    simp only [List.mem_cons, List.not_mem_nil, or_false] at he
    rcases he with rfl | rfl | rfl
    · exact ⟨by simp [symbolsOf], by simp⟩
    · refine ⟨?_, ?_⟩
      · rcases hv with rfl | ⟨k, rfl, hk⟩
        · intro b hb s hs
          simp only [symbolsOf, Option.toList, List.mem_append, List.mem_singleton] at hb
          rcases hb with (rfl | rfl) | rfl
          · rw [hf] at hs; cases hs; exact sf
          · rw [ha] at hs; cases hs; exact sa
          · cases hs; exact sv
        · intro b hb s hs
          simp only [symbolsOf, Option.toList, List.mem_append, List.mem_singleton] at hb
          rcases hb with (rfl | rfl) | rfl
          · rw [hf] at hs; cases hs; exact sf
          · rw [ha] at hs; cases hs; exact sa
          · simp only [argSym, tokSym, hk] at hs; cases hs; exact sv
      · intro w hw
        simp only [Except.ok.injEq, Option.some.injEq] at hw
        subst hw
        rcases hv with rfl | ⟨k, rfl, hk⟩
        · exact sv.1
        · trivial
    · exact ⟨by simp [symbolsOf], by simp⟩
  · intro n hn
    simp only [List.mem_singleton] at hn
    subst hn
    exact fun h => h

/-- **C36**  (all but texts like `$10`, see `C36_sid_text`)  Symbols with any text, as field name, annotation and value, given
as `str` or as tokens, are read back as symbols with the same text: never as a keyword, a symbol ID or an operator. -/
theorem C36_symbols_round_trip_partial (F : FloatText) (hF : Faithful F) (indent : Option Text) (hi : ∀ t, indent = some t → IsBlank t) (f a : SymArg) (v : PyVal) (tf ta tv : Text)
    (hf : argSym f = some (.text tf)) (ha : argSym a = some (.text ta)) (hv : ValueText v tv) (uf : IsUnicode tf) (ua : IsUnicode ta) (uv : IsUnicode tv)
    (sf : ¬ IsSidText tf) (sa : ¬ IsSidText ta) (sv : ¬ IsSidText tv) :
    ∃ out s, runText F indent {} (symbolEvents f a v) = (out, .ok s) ∧
      ReadsAs F out
        [{ eventType := .containerStart, ionType := some .struct, depth := some 0 },
         { eventType := .scalar, ionType := some .symbol, value := .ok (some (.sym (textToken tv))), fieldName := some (.tok (textToken tf)), annotations := [.tok (textToken ta)], depth := some 1 },
         { eventType := .containerEnd, ionType := some .struct, depth := some 0 }] none := by
  obtain ⟨ind, out, s, h1, h2, -, -, h3⟩ := C38_written_text_reads_back_partial F hF indent hi _ _ (given_symbol hf ha hv ⟨uf, sf⟩ ⟨ua, sa⟩ ⟨uv, sv⟩)
  rw [indent_ok hi] at h1
  simp only [Except.ok.injEq] at h1
  subst h1
  exact ⟨out, s, h2, h3⟩

/-- **C36**  (values at the top level, except texts like `$10` and `$ion_1_0`) -/
theorem C36_top_level_symbols_partial (F : FloatText) (ind : Option (List Nat)) (v : PyVal) (t : Text) (hv : ValueText v t) (hu : IsUnicode t) (hs : ¬ IsSidText t) (hm : ¬ IsMarkerText t) :
    ∃ out s, runText F ind {} [scalarEvent .symbol (some v), ION_STREAM_END_EVENT] = (out, .ok s) ∧ ReadsAs F out [readScalar .symbol (some (.sym (textToken t)))] none := by
  obtain ⟨bs, h1, h2, h3⟩ := TextWriter.symbolText_spec ⟨hu, hs⟩ []
  have h : TextWriter.serializeScalar F (scalarEvent .symbol (some v)) = .ok bs := by
    rw [List.append_nil] at h1
    rcases hv with rfl | ⟨k, rfl, hk⟩
    · simpa only [TextWriter.serializeScalar, scalarEvent, TextWriter.serializeValue] using h1
    · simpa only [TextWriter.serializeScalar, scalarEvent, TextWriter.serializeValue, TextWriter.serializeToken, hk] using h1
  exact ⟨bs, _, scalar_run h, scalar_reads (x := .symbol (.text t)) (TextWriter.ascii_symbol .nil (by rw [h1, List.append_nil])) (.symbol _ _ h2) fun hc => hm (h3 hc)⟩

/-- **C36**  (the exception, for every number)  A symbol with the text `$` and digits is written without quotes and read back as
the symbol ID: its text is lost. -/
theorem C36_sid_text (F : FloatText) (ind : Option (List Nat)) (ds : List Nat) (hds : Digits ds) (hne : ds ≠ []) :
    ∃ out s, runText F ind {} [scalarEvent .symbol (some (.str (36 :: ds))), ION_STREAM_END_EVENT] = (out, .ok s) ∧
      ReadsAs F out [readScalar .symbol (some (.sym ⟨none, some (decNum ds), none⟩))] none := by
  have hid : IsIdent (36 :: ds) := ⟨by simp [IdentStart], fun d hd => .inr (hds d hd)⟩
  have hu : IsUnicode (36 :: ds) := by
    intro c hc
    rcases List.mem_cons.1 hc with rfl | hc
    · exact ⟨by omega, by omega⟩
    · have := hds c hc
      simp only [Digit] at this
      exact ⟨by omega, by omega⟩
  have hq : TextWriter.needsQuotes (36 :: ds) = false := by
    have h1 := (TextWriter.isIdentifier_iff (36 :: ds)).2 hid
    have h2 : (36 :: ds) ∉ TextWriter.keywords := by
      simp [TextWriter.keywords, asc]
    simp [TextWriter.needsQuotes, h1, h2]
  have h : TextWriter.serializeScalar F (scalarEvent .symbol (some (.str (36 :: ds)))) = .ok (36 :: ds) := by
    simp only [TextWriter.serializeScalar, scalarEvent, TextWriter.serializeValue, TextWriter.symbolText, hq, Bool.false_eq_true, if_false]
    rw [TextWriter.textOrError_unicode hu]
    simp [TextWriter.bytesText, TextWriter.ident_plain hid]
  refine ⟨_, _, scalar_run h, scalar_reads (x := .symbol (.sid (decNum ds))) ?_ (.symbol _ _ (.sid ds hne hds)) ?_⟩
  · exact .cons (by omega) (.of_digits hds)
  · rintro ⟨a, b, h1, -⟩
    simp only [asc, List.map_cons, List.map_nil, List.cons_append, List.cons.injEq] at h1
    have := hds 105 (by rw [h1.2]; simp)
    simp [Digit] at this

/-- **C36**  (another exception)  The symbol `$ion_1_0` at the top level is written without quotes and read back as a version
marker: the value is lost. -/
theorem C36_version_marker_text (F : FloatText) (ind : Option (List Nat)) :
    ∃ out s, runText F ind {} [scalarEvent .symbol (some (.str (asc ['$','i','o','n','_','1','_','0']))), ION_STREAM_END_EVENT] = (out, .ok s) ∧
      ReadsAs F out [ION_VERSION_MARKER_EVENT] none := by
  have h : TextWriter.serializeScalar F (scalarEvent .symbol (some (.str (asc ['$','i','o','n','_','1','_','0'])))) = .ok (asc ['$','i','o','n','_','1','_','0']) := by
    simp only [TextWriter.serializeScalar, scalarEvent, TextWriter.serializeValue, TextWriter.symbolText]
    rw [TextWriter.textOrError_unicode (by intro c hc; revert c; unfold IsScalarValue; decide)]
    decide
  exact ⟨_, _, scalar_run h, reads_of_answers (TextWriter.ascii_of_all (by decide)) (TextReader.evalN_sound (m := 100) (n := 5) rfl)⟩

/-- **C36**  The symbol `$ion_2_0` at the top level is written without quotes, and the reader then rejects the whole text. -/
theorem C36_future_version_text (F : FloatText) (ind : Option (List Nat)) :
    ∃ out s, runText F ind {} [scalarEvent .symbol (some (.str (asc ['$','i','o','n','_','2','_','0']))), ION_STREAM_END_EVENT] = (out, .ok s) ∧
      ReadsAs F out [] (some .ionException) := by
  have h : TextWriter.serializeScalar F (scalarEvent .symbol (some (.str (asc ['$','i','o','n','_','2','_','0'])))) = .ok (asc ['$','i','o','n','_','2','_','0']) := by
    simp only [TextWriter.serializeScalar, scalarEvent, TextWriter.serializeValue, TextWriter.symbolText]
    rw [TextWriter.textOrError_unicode (by intro c hc; revert c; unfold IsScalarValue; decide)]
    decide
  exact ⟨_, _, scalar_run h, reads_of_answers (TextWriter.ascii_of_all (by decide)) (TextReader.evalN_sound (m := 100) (n := 5) rfl)⟩

/-! ## Where the code deviates -/

/-- A list with the integers 1 and 2. -/
def listEvents : List IonEvent :=
  [{ eventType := .containerStart, ionType := some .list }, scalarEvent .int (some (.int 1)), scalarEvent .int (some (.int 2)),
   { eventType := .containerEnd, ionType := some .list }, ION_STREAM_END_EVENT]

theorem digits1 : natDigits 1 = [49] := by rw [natDigits]; rfl
theorem digits2 : natDigits 2 = [50] := by rw [natDigits]; rfl

/-- **C38**  (why the indent must be Ion whitespace)  The writer accepts the control character FS as indent, since Python counts
it as whitespace, and writes `[`, newline, FS, `1`, ..., which the reader rejects. -/
theorem C38_unreadable_indent (F : FloatText) :
    ∃ ind out s, checkIndent (some [0x1c]) = .ok ind ∧ runText F ind {} listEvents = (out, .ok s) ∧
      ReadsAs F out [{ eventType := .containerStart, ionType := some .list, depth := some 0 }] (some .ionException) := by
  refine ⟨some [0x1c], [91, 10, 28, 49, 44, 10, 28, 50, 10, 93], ⟨[], true⟩, rfl, ?_,
    reads_of_answers (TextWriter.ascii_of_all (by decide)) (TextReader.evalN_sound (m := 100) (n := 5) rfl)⟩
  simp [runText, TextWriter.step, listEvents, scalarEvent, TextWriter.delimiterChunks, TextWriter.indentChunks, TextWriter.fieldChunks, TextWriter.annotationChunks, TextWriter.finish,
    TextWriter.State.written, TextWriter.State.setWritten, IonEventType.beginsValue, TextWriter.serializeScalar, TextWriter.serializeValue, intDigits, digits1, digits2,
    ION_STREAM_END_EVENT, TextWriter.openMark, TextWriter.closeMark, TextWriter.delimiter, IonType.isContainer]

/-- **C38**  (why `IsGap`)  A vertical tab is whitespace, but not right after a number: the reader rejects `[1 VT]`. -/
theorem C38_vertical_tab (F : FloatText) :
    ReadsAs F (asc ['[', '1', '\x0b', ']']) [{ eventType := .containerStart, ionType := some .list, depth := some 0 }] (some .ionException) :=
  reads_of_answers (TextWriter.ascii_of_all (by decide)) (TextReader.evalN_sound (m := 100) (n := 5) rfl)

/-- **C38**  (why no comments after field names and annotations)  The reader rejects `{a:/*c*/5}`, which is valid Ion. -/
theorem C38_comment_after_field_name (F : FloatText) :
    ReadsAs F (asc ['{', 'a', ':', '/', '*', 'c', '*', '/', '5', '}'])
      [{ eventType := .containerStart, ionType := some .struct, depth := some 0 },
       { eventType := .scalar, ionType := some .int, value := .ok (some (.int 5)), fieldName := some (.tok (textToken [97])), depth := some 1 }] (some .ionException) :=
  reads_of_answers (TextWriter.ascii_of_all (by decide)) (TextReader.evalN_sound (m := 200) (n := 5) rfl)

/-- **C38**  (why a NaN must be the standard one)  A NaN with a payload is written as `nan`, which is read as the NaN without one. -/
theorem C38_nan_payload (F : FloatText) (ind : Option (List Nat)) :
    ∃ out s, runText F ind {} [scalarEvent .float (some (.float 0x7FF8000000000001)), ION_STREAM_END_EVENT] = (out, .ok s) ∧
      ReadsAs F out [readScalar .float (some (.float nanBits))] none := by
  have h : TextWriter.serializeScalar F (scalarEvent .float (some (.float 0x7FF8000000000001))) = .ok (asc ['n','a','n']) := by
    simp only [TextWriter.serializeScalar, scalarEvent, TextWriter.serializeValue, TextWriter.floatStr]
    rw [if_pos (by decide)]
  exact ⟨_, _, scalar_run h, reads_of_answers (TextWriter.ascii_of_all (by decide)) (TextReader.evalN_sound (m := 100) (n := 5) rfl)⟩

/-- **C37**  (why an integer must be an `int` and not a `bool`)  `True` given as an integer is written as `True`, which is read as a
symbol. -/
theorem C37_bool_as_int (F : FloatText) (ind : Option (List Nat)) :
    ∃ out s, runText F ind {} [scalarEvent .int (some (.bool true)), ION_STREAM_END_EVENT] = (out, .ok s) ∧
      ReadsAs F out [readScalar .symbol (some (.sym (textToken (asc ['T','r','u','e']))))] none :=
  ⟨_, _, scalar_run rfl, reads_of_answers (TextWriter.ascii_of_all (by decide)) (TextReader.evalN_sound (m := 100) (n := 5) rfl)⟩

/-- 2 January 2020, with this offset. -/
def someDate (tz : Option Int) : Timestamp := ⟨⟨2020, 1, 2, 0, 0, 0, 0, tz⟩, some .day, 0, ⟨false, 0, 0⟩⟩

/-- **C38**  (why dates must have no offset)  A date with the offset UTC is written as `2020-01-02T`, which is read as a date with
unknown offset. -/
theorem C38_date_offset_lost (F : FloatText) (ind : Option (List Nat)) :
    ∃ out s, runText F ind {} [scalarEvent .timestamp (some (.timestamp (.ts (someDate (some 0))))), ION_STREAM_END_EVENT] = (out, .ok s) ∧
      ReadsAs F out [readScalar .timestamp (some (.timestamp (.ts (someDate none))))] none :=
  ⟨asc ['2','0','2','0','-','0','1','-','0','2','T'], _, scalar_run rfl, reads_of_answers (TextWriter.ascii_of_all (by decide)) (TextReader.evalN_sound (m := 100) (n := 5) rfl)⟩

/-- **C38**  (why offsets must be whole minutes)  An offset with seconds, which Python allows, is written in a form that the reader
rejects. -/
theorem C38_offset_seconds (F : FloatText) (ind : Option (List Nat)) :
    ∃ out s, runText F ind {} [scalarEvent .timestamp (some (.timestamp (.dt ⟨2020, 1, 2, 3, 4, 5, 0, some 61000000⟩))), ION_STREAM_END_EVENT] = (out, .ok s) ∧
      ReadsAs F out [] (some .ionException) :=
  ⟨asc ['2','0','2','0','-','0','1','-','0','2','T','0','3',':','0','4',':','0','5','.','0','0','0','0','0','0','+','0','0',':','0','1','0','1'], _,
    scalar_run rfl, reads_of_answers (TextWriter.ascii_of_all (by decide)) (TextReader.evalN_sound (m := 100) (n := 5) rfl)⟩

/-- **C38**  The reader does not notice that a text ends within a list: `[1` yields the start of the list, the number, and then
the end of the stream. -/
theorem C38_truncated_list_accepted (F : FloatText) :
    ReadsAs F (asc ['[', '1'])
      [{ eventType := .containerStart, ionType := some .list, depth := some 0 }, { eventType := .scalar, ionType := some .int, value := .ok (some (.int 1)), depth := some 1 }] none :=
  reads_of_answers (TextWriter.ascii_of_all (by decide)) (TextReader.evalN_sound (m := 100) (n := 5) rfl)

/-- **C38**  A field without a value: `{a}` is not rejected, but yields a symbol without a field name within a struct. -/
theorem C38_field_without_value (F : FloatText) :
    ReadsAs F (asc ['{', 'a', '}'])
      [{ eventType := .containerStart, ionType := some .struct, depth := some 0 }, { eventType := .scalar, ionType := some .symbol, value := .ok (some (.sym (textToken [97]))), depth := some 1 },
       { eventType := .containerEnd, ionType := some .struct, depth := some 0 }] none :=
  reads_of_answers (TextWriter.ascii_of_all (by decide)) (TextReader.evalN_sound (m := 100) (n := 5) rfl)

/-- **C38**  A lone `-` makes the reader raise `TypeError` instead of `IonException`. -/
theorem C38_lone_minus (F : FloatText) : ReadsAs F (asc ['-']) [] (some .typeError) :=
  reads_of_answers (TextWriter.ascii_of_all (by decide)) (TextReader.evalN_sound (m := 100) (n := 5) rfl)

/-! ## The hypotheses can be met -/

/-- A conversion between floats and text: the bit pattern, as a number. -/
def plainFloat : FloatText where
  repr bits := natDigits bits.toNat
  parse t := .ok (UInt64.ofNat (decNum (t.takeWhile fun c => decide (48 ≤ c ∧ c ≤ 57))))

/-- The assumption on `repr` and `float` is not contradictory. -/
theorem plainFloat_faithful : Faithful plainFloat := by
  refine ⟨fun bits _ => ⟨false, natDigits bits.toNat, natDigits bits.toNat, 0, .whole _ (TextWriter.natDigits_uint _), .inr ⟨by simp [plainFloat, signText], ?_⟩⟩⟩
  have hd := (TextWriter.natDigits_spec bits.toNat).1
  have hn := (TextWriter.natDigits_spec bits.toNat).2.2.1
  have ht : ∀ (l r : List Nat), Digits l → (l ++ 101 :: r).takeWhile (fun c => decide (48 ≤ c ∧ c ≤ 57)) = l := by
    intro l r
    induction l with
    | nil => intro _; simp
    | cons c l ih =>
      intro h
      have hc := h c (by simp)
      simp only [Digit] at hc
      rw [List.cons_append, List.takeWhile_cons, if_pos (by simpa using hc), ih fun d hd => h d (by simp [hd])]
  simp only [plainFloat, asc, List.map_cons, List.map_nil, Except.ok.injEq]
  rw [show Char.toNat 'e' = 101 from rfl, ht _ _ hd, hn]
  exact UInt64.ofNat_toNat

/-- `{'null': 'a b'::'$x'}`. -/
example : ∃ out s, runText plainFloat none {} (symbolEvents (.text (asc ['n','u','l','l'])) (.tok ⟨some (asc ['a',' ','b']), some 10, none⟩) (.str (asc ['$','x']))) = (out, .ok s) ∧
    ReadsAs plainFloat out
      [{ eventType := .containerStart, ionType := some .struct, depth := some 0 },
       { eventType := .scalar, ionType := some .symbol, value := .ok (some (.sym (textToken (asc ['$','x'])))), fieldName := some (.tok (textToken (asc ['n','u','l','l']))),
         annotations := [.tok (textToken (asc ['a',' ','b']))], depth := some 1 },
       { eventType := .containerEnd, ionType := some .struct, depth := some 0 }] none := by
  have hu : ∀ t : Text, (∀ c ∈ t, c < 128) → IsUnicode t := fun t h c hc => by have := h c hc; exact ⟨by omega, by omega⟩
  have hs : ∀ t : Text, t[1]? = some 120 ∨ t.head? ≠ some 36 → ¬ IsSidText t := by
    rintro t h ⟨ds, rfl, -, hd⟩
    rcases h with h | h
    · have := hd 120 (List.mem_of_getElem? (by simpa using h))
      simp [Digit] at this
    · simp at h
  exact C36_symbols_round_trip_partial plainFloat plainFloat_faithful none (by simp) _ _ _ _ _ _ rfl rfl (.inl rfl) (hu _ (by decide)) (hu _ (by decide)) (hu _ (by decide))
    (hs _ (.inr (by decide))) (hs _ (.inr (by decide))) (hs _ (.inl (by decide)))

/-- Events with a version marker, a nested list with a float, a timestamp and a string, a flush, and a blob. -/
example : Given
    [ION_VERSION_MARKER_EVENT,
     { eventType := .containerStart, ionType := some .list },
     { eventType := .containerStart, ionType := some .sexp, annotations := [.text [97]] },
     scalarEvent .float (some (.float 0x3FF0000000000000)), scalarEvent .string (some (.str [10, 0x1F600])),
     { eventType := .containerEnd, ionType := some .sexp },
     { eventType := .containerEnd, ionType := some .list },
     ION_STREAM_END_EVENT,
     scalarEvent .blob (some (.bytes [1, 2]))]
    [none, some (.cont none [] .list [.cont none [.text [97]] .sexp [.scalar none [] (.float 0x3FF0000000000000), .scalar none [] (.string [10, 0x1F600])]]),
     some (.scalar none [] (.blob [1, 2]))] := by
  have hsafe : ∀ e : IonEvent, (symbolsOf e = [] ∨ symbolsOf e = [.text [97]]) → (∀ v, e.value = .ok (some v) → ValSafe v) → EventSafe e := by
    intro e h1 h2
    refine ⟨fun a ha s hs => ?_, h2⟩
    rcases h1 with h1 | h1
    · rw [h1] at ha; cases ha
    · rw [h1] at ha
      simp only [List.mem_singleton] at ha
      subst ha
      cases hs
      refine ⟨by intro c hc; simp only [List.mem_singleton] at hc; subst hc; exact ⟨by omega, by omega⟩, ?_⟩
      rintro ⟨ds, h, -⟩
      simp at h
  refine .marker _ _ (.values [_, _, _, _, _, _] _ [_] _ rfl ?_ (by simp [MarkerLike]) (.flush _ _ (.values [_] [] [_] [] rfl ?_ (by simp [MarkerLike]) .nil)))
  · intro e he
    simp only [List.mem_cons, List.not_mem_nil, or_false] at he
    rcases he with rfl | rfl | rfl | rfl | rfl | rfl
    · exact hsafe _ (.inl rfl) (by simp)
    · exact hsafe _ (.inr rfl) (by simp)
    · refine hsafe _ (.inl rfl) fun v hv => ?_
      cases hv
      exact .inl (by unfold Finite; decide)
    · refine hsafe _ (.inl rfl) fun v hv => ?_
      cases hv
      intro c hc
      simp only [List.mem_cons, List.not_mem_nil, or_false] at hc
      rcases hc with rfl | rfl <;> exact ⟨by omega, by omega⟩
    · exact hsafe _ (.inl rfl) (by simp)
    · exact hsafe _ (.inl rfl) (by simp)
  · intro e he
    simp only [List.mem_singleton] at he
    subst he
    refine hsafe _ (.inl rfl) fun v hv => ?_
    cases hv
    trivial

end Ion.Text

import Verif.Props.Text
set_option linter.unusedSimpArgs false
/-!
# C38: the text grammar, and where the reader deviates from it

A text that uses much of the grammar of `TextSpec.lean`, and the reader's deviations from Ion text on given texts.  Each of
these explains a restriction in the grammar.
-/
namespace Ion.Text
open Ion Ion.Spec Ion.TextSpec

theorem comment_c : IsTrivia (asc ['/','*','c','*','/']) :=
  .comment (asc ['/','*','c','*','/']) [] (.block [99] (by decide) (by decide)) .nil

theorem ident_sym (t : Text) (h1 : IsIdent t) (h2 : t ∉ reserved) (h3 : t.head? ≠ some 36) : IsSym t (.text t) := by
  refine .ident t h1 h2 ?_
  rintro ⟨ds, rfl, _⟩
  simp at h3

/-- A gap of a space and something else is enough after any value but `''`, a long string, or an operator. -/
theorem apart_of {n : Spec.Node TSym} {v g rest : List Nat} (hg : IsGap g) (ha : g = [] → rest = [] ∨ Closed v n ∨ Opens rest) (he : ¬ IsEmptySymbol n) (hl : ¬ IsLongString v n)
    (ho : TextReader.isOp (v.getLast?.getD 0) = false) (hs : ∀ r, rest ≠ 47 :: r := by simp [asc, opening, quotes3]) : IsApart n v g rest := by
  refine ⟨hg, ha, fun h => absurd h he, fun h => absurd h hl, fun r h => absurd h (hs r), ?_⟩
  rintro t ⟨_, c, hc, l, rfl⟩
  have := TextReader.isOp_iff.2 hc
  simp [this] at ho

/-- A text with comments, an operator, values without
whitespace between them, a negative hexadecimal number, a surrogate pair, a string as field name, underscores, a trailing comma, a long
string in two pieces. -/
def sampleText : List Nat :=
  asc ['(','a',' ','<','=','\'','b','\'','/','*','c','*','/','-','0','x','1','F',')'] ++
    (asc ['"','\\','u','D','8','3','D','\\','u','D','E','0','0','"'] ++ (asc ['{','"','k','"',':','1','_','0',',','}'] ++
      asc ['\'','\'','\'','x','\'','y','\'','\'','\'',' ','/','/','z','\n','\'','\'','\'','\n','\'','\'','\'']))

/-- What it denotes. -/
def sampleItems : List (Option (Spec.Node TSym)) :=
  [some (.cont none [] .sexp [.scalar none [] (.symbol (.text [97])), .scalar none [] (.symbol (.text [60, 61])), .scalar none [] (.symbol (.text [98])), .scalar none [] (.int (-31))]),
   some (.scalar none [] (.string [0x1F600])),
   some (.cont none [] .struct [.scalar (some (.text [107])) [] (.int 10)]),
   some (.scalar none [] (.string [120, 39, 121, 10]))]

theorem gap0 : IsGap [] := ⟨.nil, by simp⟩

theorem sample_sexp : IsValue F none (asc ['(','a',' ','<','=','\'','b','\'','/','*','c','*','/','-','0','x','1','F',')'])
    (.cont none [] .sexp [.scalar none [] (.symbol (.text [97])), .scalar none [] (.symbol (.text [60, 61])), .scalar none [] (.symbol (.text [98])), .scalar none [] (.int (-31))]) := by
  have hb : IsSym [39, 98, 39] (.text [98]) := .quoted [98] [98] (.cons [98] [] 98 [] (.plain 98 (by omega) ⟨by omega, by omega⟩ (by simp) (by omega) (by omega)) .nil)
  have h4 : IsItems F .sexp (([] ++ ([] ++ asc ['-','0','x','1','F'])) ++ ([] ++ [])) [.scalar none [] (.int (-31))] := by
    refine .cons .sexp _ [] [] _ [] (.scalar _ [] [] _ none [] _ (.none _ (by simp)) .nil
      (.radix true 16 120 [49, 70] [49, 70] 31 (.inr ⟨rfl, .inl rfl⟩) (by simp) ?_ (.cons _ _ _ (.cons _ _ _ .nil))) (by simp)) (.last _ [] (apart_of gap0 (fun _ => .inl rfl) id id (by decide))) (.nil _)
    exact .snoc [49] 1 70 15 (.snoc [] 0 49 1 .nil (.digit 49 (by omega) (by omega)) (by omega)) (.upper 70 (by omega) (by omega)) (by omega)
  have hg : IsGap (asc ['/','*','c','*','/']) := ⟨comment_c, by simp [asc]⟩
  have h3 : IsItems F .sexp (([] ++ ([] ++ [39, 98, 39])) ++ (asc ['/','*','c','*','/'] ++ _)) (.scalar none [] (.symbol (.text [98])) :: _) :=
    .cons .sexp _ (asc ['/','*','c','*','/']) _ _ _ (.scalar _ [] [] _ none [] _ (.none _ (by simp)) .nil (.symbol _ _ hb) (by simp))
      (.sexp _ _ (apart_of hg (by simp [asc]) id id (by decide))) h4
  have ha : IsApart (.scalar none [] (.symbol (.text [60, 61]))) ([] ++ [60, 61]) [] (([] ++ ([] ++ [39, 98, 39])) ++ (asc ['/','*','c','*','/'] ++ (([] ++ ([] ++ asc ['-','0','x','1','F'])) ++ ([] ++ [])))) := by
    refine ⟨gap0, fun _ => .inr (.inl (.inr ⟨61, by simp [OpChar, asc], [60], rfl⟩)), ?_, ?_, by simp, ?_⟩
    · exact fun h => h.elim
    · exact fun h => h.elim
    · rintro t ⟨⟨f, as, h⟩, -⟩
      simp only [Node.scalar.injEq, Scalar.symbol.injEq, TSym.text.injEq] at h
      obtain ⟨-, -, rfl⟩ := h
      refine ⟨by simp, fun _ c r hc => ?_⟩
      simp only [List.nil_append, List.cons_append, List.cons.injEq] at hc
      rw [← hc.1]
      exact ⟨by simp [OpChar, asc], by simp, by simp⟩
  have h2 : IsItems F .sexp (([] ++ [60, 61]) ++ ([] ++ _)) (.scalar none [] (.symbol (.text [60, 61])) :: _) :=
    .cons .sexp _ [] _ _ _ (.operator [] [60, 61] [] .nil ⟨by simp, by simp [OpChar, asc], by decide, by decide⟩) (.sexp _ _ ha) h3
  have h1 : IsItems F .sexp (([] ++ ([] ++ [97])) ++ ([32] ++ _)) (.scalar none [] (.symbol (.text [97])) :: _) :=
    .cons .sexp _ [32] _ _ _ (.scalar _ [] [] _ none [] _ (.none _ (by simp)) .nil (.symbol _ _ (ident_sym [97] (by simp [IsIdent, IdentStart]) (by decide) (by decide))) (by simp))
      (.sexp _ _ (apart_of TextWriter.gap_space.gap (by simp) id id (by decide))) h2
  exact .cont none [] [] [] _ none [] .sexp _ (.none _ (by simp)) .nil .nil (by simp) h1

theorem sample_string : IsValue F none (asc ['"','\\','u','D','8','3','D','\\','u','D','E','0','0','"']) (.scalar none [] (.string [0x1F600])) := by
  have hh : HexNum 4 (asc ['D','8','3','D']) 0xD83D :=
    .snoc 3 (asc ['D','8','3']) 0xD83 68 13 (.snoc 2 (asc ['D','8']) 0xD8 51 3 (.snoc 1 (asc ['D']) 13 56 8 (.snoc 0 [] 0 68 13 .nil (.upper 68 (by omega) (by omega))) (.digit 56 (by omega) (by omega)))
      (.digit 51 (by omega) (by omega))) (.upper 68 (by omega) (by omega))
  have hl : HexNum 4 (asc ['D','E','0','0']) 0xDE00 :=
    .snoc 3 (asc ['D','E','0']) 0xDE0 48 0 (.snoc 2 (asc ['D','E']) 0xDE 48 0 (.snoc 1 (asc ['D']) 13 69 14 (.snoc 0 [] 0 68 13 .nil (.upper 68 (by omega) (by omega))) (.upper 69 (by omega) (by omega)))
      (.digit 48 (by omega) (by omega))) (.digit 48 (by omega) (by omega))
  refine .scalar none [] [] _ none [] _ (.none _ (by simp)) .nil (.string _ _ (.cons _ [] _ [] (.pair _ _ _ _ rfl hh hl (by omega) (by omega) (by omega) (by omega)) .nil)) fun _ _ => TextWriter.not_marker (by decide)

theorem sample_struct : IsValue F none (asc ['{','"','k','"',':','1','_','0',',','}']) (.cont none [] .struct [.scalar (some (.text [107])) [] (.int 10)]) := by
  have hk : IsFieldName (asc ['"','k','"']) (.text [107]) := .string [107] [107] (.cons [107] [] 107 [] (.plain 107 (by omega) ⟨by omega, by omega⟩ (by simp) (by omega) (by omega)) .nil)
  have hn : IsScalarText F (asc ['1','_','0']) (.int 10) :=
    .int false (asc ['1','_','0']) [49, 48] (.inr ⟨49, [48], rfl, by omega, by omega, by simp [Digits, Digit]⟩)
      (.under 49 48 1 0 [] [48] (.digit 49 (by omega) (by omega)) (.digit 48 (by omega) (by omega)) (.cons _ _ _ .nil))
  have hi : IsItems F .struct (((asc ['"','k','"'] ++ ([] ++ 58 :: [])) ++ ([] ++ asc ['1','_','0'])) ++ (([] ++ 44 :: []) ++ [])) [.scalar (some (.text [107])) [] (.int 10)] :=
    .cons .struct _ _ [] _ [] (.scalar _ _ [] _ _ [] _ (.some _ [] [] _ hk gap0 (by simp [asc]) (by simp [IsBlank])) .nil hn (by simp))
      (.comma _ [] [] [] (by simp) (apart_of gap0 (fun _ => .inl rfl) id id (by decide)) .nil) (.nil _)
  exact .cont none [] [] [] _ none [] .struct _ (.none _ (by simp)) .nil .nil (by simp [asc]) hi

theorem sample_long : IsValue F none (asc ['\'','\'','\'','x','\'','y','\'','\'','\'',' ','/','/','z','\n','\'','\'','\'','\n','\'','\'','\'']) (.scalar none [] (.string [120, 39, 121, 10])) := by
  have h2 : IsLong false (quotes3 ++ ([10] ++ quotes3)) [10] := .one [10] [10] (.newline 0 [10] [] [] (by omega) (.inl rfl) .nil)
  have h1 : IsLongChars false (asc ['x','\'','y']) [120, 39, 121] :=
    .char 0 [120] [39, 121] 120 [39, 121] (by omega) (.plain 120 (by omega) ⟨by omega, by omega⟩ (by simp) (by omega) (by omega))
      (.char 1 [121] [] 121 [] (by omega) (.plain 121 (by omega) ⟨by omega, by omega⟩ (by simp) (by omega) (by omega)) .nil)
  have hg : IsTrivia (asc [' ','/','/','z','\n']) := .space 32 _ (by simp [IsSpace]) (.comment (asc ['/','/','z','\n']) [] (.line [122] 10 (by simp) (.inl rfl)) .nil)
  exact .scalar none [] [] _ none [] _ (.none _ (by simp)) .nil (.longString _ _ (.more _ _ _ _ _ h1 hg (by simp) h2)) fun _ _ => TextWriter.not_marker (by decide)

theorem sample_doc : IsDoc F sampleText sampleItems := by
  have h4 : IsDoc F (_ ++ ([] ++ [])) _ := .value _ [] [] _ [] sample_long TextWriter.gap_nil.last .nil
  have h3 : IsDoc F (_ ++ ([] ++ _)) _ := .value _ [] _ _ _ sample_struct (apart_of gap0 (fun _ => .inr (.inl trivial)) id id (by decide)) h4
  have h2 : IsDoc F (_ ++ ([] ++ _)) _ := .value _ [] _ _ _ sample_string (apart_of gap0 (fun _ => .inr (.inl trivial)) id (by rintro ⟨l, hl⟩; have := congrArg List.getLast? hl; simp [asc] at this) (by decide)) h3
  have h1 : IsDoc F (_ ++ ([] ++ _)) _ := .value _ [] _ _ _ sample_sexp (apart_of gap0 (fun _ => .inr (.inl trivial)) id id (by decide)) h2
  simpa [sampleText, sampleItems] using h1

/-- Handed over character by character, with a comment before it. -/
example : readBytes F ((asc ['/','*','c','*','/'] ++ sampleText).map fun c => [c]) 12 = (docEvents sampleItems ++ [ION_STREAM_END_EVENT]).map .ok := by
  refine C38_reads_document_bytes F (asc ['/','*','c','*','/']) sampleText sampleItems comment_c sample_doc (by decide) ((asc ['/','*','c','*','/'] ++ sampleText).map fun c => [c]) ⟨by decide, by decide⟩

/-- `(a+b-1 true<=x)`: operators directly after words, and a negative number directly after a symbol. -/
theorem sample_joined : IsValue F none (asc ['(','a','+','b','-','1',' ','t','r','u','e','<','=','x',')'])
    (.cont none [] .sexp [.scalar none [] (.symbol (.text [97])), .scalar none [] (.symbol (.text [43])), .scalar none [] (.symbol (.text [98])), .scalar none [] (.int (-1)),
      .scalar none [] (.bool true), .scalar none [] (.symbol (.text [60, 61])), .scalar none [] (.symbol (.text [120]))]) := by
  have hw : ∀ (c : Nat), IdentStart c → c ∉ [36] → IsValue F (some .sexp) ([] ++ ([] ++ [c])) (.scalar none [] (.symbol (.text [c]))) := by
    intro c h1 h2
    refine .scalar _ [] [] _ none [] _ (.none _ (by simp)) .nil (.symbol _ _ (ident_sym [c] ⟨h1, by simp⟩ ?_ ?_)) (by simp)
    · simp [reserved, asc]
    · simpa using h2
  have hop : ∀ (t : List Nat), IsOperator t → IsValue F (some .sexp) ([] ++ t) (.scalar none [] (.symbol (.text t))) := fun t h => .operator [] t [] .nil h
  have hops : ∀ (t rest : List Nat) (c : Nat), OpChar c → [c] <:+ t → (∀ d r, rest = d :: r → (97 ≤ d ∧ d ≤ 122 ∧ d ≠ 105)) → IsApart (.scalar none [] (.symbol (.text t))) ([] ++ t) [] rest := by
    intro t rest c hc ht h
    refine ⟨gap0, fun _ => .inr (.inl (.inr ⟨c, hc, ht⟩)), fun h1 => ?_, fun h1 => h1.elim, fun r hr => absurd (h 47 r hr).1 (by omega), ?_⟩
    · cases t with
      | nil => simp at ht
      | cons a t => exact h1.elim
    · rintro u _
      refine ⟨by simp, fun _ d r hd => ?_⟩
      obtain ⟨h1, h2, h3⟩ := h d r hd
      refine ⟨fun h4 => ?_, fun _ => h3, fun _ => by simp [Digit]; omega⟩
      have key : ∀ d < 128, 97 ≤ d → d ≤ 122 → TextReader.isOp d = false := by decide +kernel
      have := key d (by omega) h1 h2
      rw [TextReader.isOp_iff.2 h4] at this
      cases this
  have h7 : IsItems F .sexp (([] ++ ([] ++ [120])) ++ ([] ++ [])) _ := .cons .sexp _ [] [] _ [] (hw 120 (by simp [IdentStart]) (by simp)) (.last _ [] (apart_of gap0 (fun _ => .inl rfl) id id (by decide))) (.nil _)
  have h6 : IsItems F .sexp (([] ++ [60, 61]) ++ ([] ++ _)) _ := .cons .sexp _ [] _ _ _ (hop [60, 61] ⟨by simp, by simp [OpChar, asc], by decide, by decide⟩)
    (.sexp _ _ (hops [60, 61] _ 61 (by simp [OpChar, asc]) ⟨[60], rfl⟩ (by intro d r hd; simp at hd; omega))) h7
  have h5 : IsItems F .sexp (([] ++ ([] ++ asc ['t','r','u','e'])) ++ ([] ++ _)) _ := .cons .sexp _ [] _ _ _ (.scalar _ [] [] _ none [] _ (.none _ (by simp)) .nil .true_ (by simp))
    (.joined _ ⟨trivial, ⟨60, _, rfl, by simp [OpChar, asc]⟩, by simp⟩) h6
  have hint : IsScalarText F (asc ['-','1']) (.int (-1)) := .int true [49] [49] (.inr ⟨49, [], rfl, by omega, by omega, by simp [Digits]⟩) (.cons _ _ _ .nil)
  have h4 : IsItems F .sexp (([] ++ ([] ++ asc ['-','1'])) ++ ([32] ++ _)) _ := .cons .sexp _ [32] _ _ _ (.scalar _ [] [] _ none [] _ (.none _ (by simp)) .nil hint (by simp))
    (.sexp _ _ (apart_of TextWriter.gap_space.gap (by simp) id id (by decide))) h5
  have h3 : IsItems F .sexp (([] ++ ([] ++ [98])) ++ ([] ++ _)) _ := .cons .sexp _ [] _ _ _ (hw 98 (by simp [IdentStart]) (by simp))
    (.joined _ ⟨⟨98, .inl (by simp [IdentStart]), [], rfl⟩, ⟨45, _, rfl, by simp [OpChar, asc]⟩, by simp⟩) h4
  have h2 : IsItems F .sexp (([] ++ [43]) ++ ([] ++ _)) _ := .cons .sexp _ [] _ _ _ (hop [43] ⟨by simp, by simp [OpChar, asc], by decide, by decide⟩)
    (.sexp _ _ (hops [43] _ 43 (by simp [OpChar, asc]) ⟨[], rfl⟩ (by intro d r hd; simp at hd; omega))) h3
  have h1 : IsItems F .sexp (([] ++ ([] ++ [97])) ++ ([] ++ _)) _ := .cons .sexp _ [] _ _ _ (hw 97 (by simp [IdentStart]) (by simp))
    (.joined _ ⟨⟨97, .inl (by simp [IdentStart]), [], rfl⟩, ⟨43, _, rfl, by simp [OpChar, asc]⟩, by simp⟩) h2
  exact .cont none [] [] [] _ none [] .sexp _ (.none _ (by simp)) .nil .nil (by simp) h1

/-- Handed over character by character. -/
example : readBytes F ((asc ['(','a','+','b','-','1',' ','t','r','u','e','<','=','x',')']).map fun c => [c]) 10 =
    (docEvents [some (.cont none [] .sexp [.scalar none [] (.symbol (.text [97])), .scalar none [] (.symbol (.text [43])), .scalar none [] (.symbol (.text [98])), .scalar none [] (.int (-1)),
      .scalar none [] (.bool true), .scalar none [] (.symbol (.text [60, 61])), .scalar none [] (.symbol (.text [120]))])] ++ [ION_STREAM_END_EVENT]).map .ok := by
  have hd : IsDoc F (_ ++ ([] ++ [])) _ := .value _ [] [] _ [] (sample_joined (F := F)) TextWriter.gap_nil.last .nil
  exact C38_reads_document_bytes F [] _ _ .nil (by simpa using hd) (by decide) ((asc ['(','a','+','b','-','1',' ','t','r','u','e','<','=','x',')']).map fun c => [c]) ⟨by decide, by decide⟩

/-- `('a'/ b / 1)`: operators that begin with a slash, after a quoted symbol and between spaces. -/
theorem sample_slash : IsValue F none (asc ['(','/','=',' ','\'','a','\'','/',' ','b',' ','/',' ','1',')'])
    (.cont none [] .sexp [.scalar none [] (.symbol (.text [47, 61])), .scalar none [] (.symbol (.text [97])), .scalar none [] (.symbol (.text [47])), .scalar none [] (.symbol (.text [98])),
      .scalar none [] (.symbol (.text [47])), .scalar none [] (.int 1)]) := by
  have hop : ∀ (t : List Nat), IsOperator t → IsValue F (some .sexp) ([] ++ t) (.scalar none [] (.symbol (.text t))) := fun t h => .operator [] t [] .nil h
  have hsl : IsOperator [47] := ⟨by simp, by simp [OpChar, asc], by decide, by decide⟩
  have hops : ∀ (a : Nat) (t rest : List Nat), (∀ r, rest ≠ 47 :: r) → IsApart (.scalar none [] (.symbol (.text (a :: t)))) ([] ++ a :: t) [32] rest :=
    fun a t rest h => ⟨TextWriter.gap_space.gap, by simp, fun h1 => h1.elim, fun h1 => h1.elim, fun r hr => absurd hr (h r), fun u _ => ⟨by simp, by simp⟩⟩
  have hblank : ∀ (w : List Nat) (v : List Nat) (c : Nat) (rest : List Nat), IsBlank w → (w = [] → Closed v (.scalar none [] (.symbol (.text [c])))) → TextReader.isOp (v.getLast?.getD 0) = false → IsGap w →
      IsApart (.scalar none [] (.symbol (.text [c]))) v w (47 :: rest) := by
    refine fun w v c rest h1 h2 h3 h4 => ⟨h4, fun h => .inr (.inl (h2 h)), fun h1 => h1.elim, fun h1 => h1.elim, fun r hr => ⟨h1, id⟩, ?_⟩
    rintro t ⟨_, c, hc, l, rfl⟩
    have := TextReader.isOp_iff.2 hc
    simp [this] at h3
  have hint : IsScalarText F [49] (.int 1) := .int false [49] [49] (.inr ⟨49, [], rfl, by omega, by omega, by simp [Digits]⟩) (.cons _ _ _ .nil)
  have hb : IsSym [39, 97, 39] (.text [97]) := .quoted [97] [97] (.cons [97] [] 97 [] (.plain 97 (by omega) ⟨by omega, by omega⟩ (by simp) (by omega) (by omega)) .nil)
  have h6 : IsItems F .sexp (([] ++ ([] ++ [49])) ++ ([] ++ [])) _ := .cons .sexp _ [] [] _ [] (.scalar _ [] [] _ none [] _ (.none _ (by simp)) .nil hint (by simp))
    (.last _ [] (apart_of gap0 (fun _ => .inl rfl) id id (by decide))) (.nil _)
  have h5 : IsItems F .sexp (([] ++ [47]) ++ ([32] ++ _)) _ := .cons .sexp _ [32] _ _ _ (hop [47] hsl) (.sexp _ _ (hops 47 [] _ (by simp))) h6
  have h4 : IsItems F .sexp (([] ++ ([] ++ [98])) ++ ([32] ++ _)) _ := .cons .sexp _ [32] _ _ _
    (.scalar _ [] [] _ none [] _ (.none _ (by simp)) .nil (.symbol _ _ (ident_sym [98] ⟨by simp [IdentStart], by simp⟩ (by decide) (by decide))) (by simp))
    (.sexp _ _ (hblank [32] _ 98 _ (by simp [IsBlank, IsSpace]) (by simp) (by decide) TextWriter.gap_space.gap)) h5
  have h3 : IsItems F .sexp (([] ++ [47]) ++ ([32] ++ _)) _ := .cons .sexp _ [32] _ _ _ (hop [47] hsl) (.sexp _ _ (hops 47 [] _ (by simp))) h4
  have h2 : IsItems F .sexp (([] ++ ([] ++ [39, 97, 39])) ++ ([] ++ _)) _ := .cons .sexp _ [] _ _ _ (.scalar _ [] [] _ none [] _ (.none _ (by simp)) .nil (.symbol _ _ hb) (by simp))
    (.sexp _ _ (hblank [] _ 97 _ (by simp [IsBlank]) (fun _ => .inl ⟨[39, 97], rfl⟩) (by decide) gap0)) h3
  have h1 : IsItems F .sexp (([] ++ [47, 61]) ++ ([32] ++ _)) _ := .cons .sexp _ [32] _ _ _ (hop [47, 61] ⟨by simp, by simp [OpChar, asc], by decide, by decide⟩) (.sexp _ _ (hops 47 [61] _ (by simp))) h2
  exact .cont none [] [] [] _ none [] .sexp _ (.none _ (by simp)) .nil .nil (by simp [IsBlank]) h1

/-- Handed over character by character. -/
example : readBytes F ((asc ['(','/','=',' ','\'','a','\'','/',' ','b',' ','/',' ','1',')']).map fun c => [c]) 9 =
    (docEvents [some (.cont none [] .sexp [.scalar none [] (.symbol (.text [47, 61])), .scalar none [] (.symbol (.text [97])), .scalar none [] (.symbol (.text [47])), .scalar none [] (.symbol (.text [98])),
      .scalar none [] (.symbol (.text [47])), .scalar none [] (.int 1)])] ++ [ION_STREAM_END_EVENT]).map .ok := by
  have hd : IsDoc F (_ ++ ([] ++ [])) _ := .value _ [] [] _ [] (sample_slash (F := F)) TextWriter.gap_nil.last .nil
  exact C38_reads_document_bytes F [] _ _ .nil (by simpa using hd) (by decide) ((asc ['(','/','=',' ','\'','a','\'','/',' ','b',' ','/',' ','1',')']).map fun c => [c]) ⟨by decide, by decide⟩

/-! ## Deviations -/

/-- The start of a container at the top level. -/
def startEvent (ty : IonType) : IonEvent := { eventType := .containerStart, ionType := some ty, depth := some 0 }

/-- A value in a container at the top level. -/
def innerEvent (ty : IonType) (v : PyVal) : IonEvent := { eventType := .scalar, ionType := some ty, value := .ok (some v), depth := some 1 }

/-- The end of a container at the top level. -/
def endEvent (ty : IonType) : IonEvent := { eventType := .containerEnd, ionType := some ty, depth := some 0 }

/-- The symbol with this text. -/
def symbolOf (t : Text) : PyVal := .sym (textToken t)

/-- **C38**  A number with a slash after it, at the end of the text, raises `TypeError` instead of `IonException`. -/
theorem C38_slash_after_number (F : FloatText) : ReadsAs F (asc ['1','2','3','/']) [] (some .typeError) :=
  reads_of_answers (TextWriter.ascii_of_all (by decide)) (TextReader.evalN_sound (m := 200) (n := 8) rfl)

/-- **C38**  So does a lone `{`. -/
theorem C38_lone_brace (F : FloatText) : ReadsAs F (asc ['{']) [] (some .typeError) :=
  reads_of_answers (TextWriter.ascii_of_all (by decide)) (TextReader.evalN_sound (m := 200) (n := 8) rfl)

/-- **C38**  So does a text that ends within an operator. -/
theorem C38_cut_operator (F : FloatText) : ReadsAs F (asc ['(','*']) [startEvent .sexp] (some .typeError) :=
  reads_of_answers (TextWriter.ascii_of_all (by decide)) (TextReader.evalN_sound (m := 200) (n := 8) rfl)

/-- **C38**  (why no comments after annotations)  The reader rejects a valid list because of a comment after an annotation. -/
theorem C38_comment_after_annotation (F : FloatText) : ReadsAs F (asc ['[','a',':',':','/','*','x','*','/','5',',','6',']']) [startEvent .list, { innerEvent .int (.int 5) with annotations := [.tok (textToken [97])] }] (some .ionException) :=
  reads_of_answers (TextWriter.ascii_of_all (by decide)) (TextReader.evalN_sound (m := 200) (n := 8) rfl)

/-- **C38**  (why no comments right after operators)  The reader takes a comment right after an operator for operators and symbols. -/
theorem C38_comment_after_operator (F : FloatText) : ReadsAs F (asc ['(','+','/','*','c','*','/','1',')']) [startEvent .sexp, innerEvent .symbol (symbolOf (asc ['+','/','*'])), innerEvent .symbol (symbolOf (asc ['c'])), innerEvent .symbol (symbolOf (asc ['*','/'])), innerEvent .int (.int 1), endEvent .sexp] none :=
  reads_of_answers (TextWriter.ascii_of_all (by decide)) (TextReader.evalN_sound (m := 200) (n := 8) rfl)

/-- **C38**  (why no comment before an operator that begins with a slash)  The reader loses the 2 of `(1 /*c*/ /2)`. -/
theorem C38_slash_after_comment (F : FloatText) : ReadsAs F (asc ['(','1',' ','/','*','c','*','/',' ','/','2',')']) [startEvent .sexp, innerEvent .int (.int 1), innerEvent .symbol (symbolOf (asc ['/'])), endEvent .sexp] none :=
  reads_of_answers (TextWriter.ascii_of_all (by decide)) (TextReader.evalN_sound (m := 200) (n := 8) rfl)

/-- **C38**  (why no `i` right after `+`)  The reader takes `+i` for the beginning of `+inf` and rejects it. -/
theorem C38_operator_before_i (F : FloatText) : ReadsAs F (asc ['(','+','i',')']) [startEvent .sexp] (some .ionException) :=
  reads_of_answers (TextWriter.ascii_of_all (by decide)) (TextReader.evalN_sound (m := 200) (n := 8) rfl)

/-- **C38**  (why no operators right after numbers)  The reader rejects `(1+2)`. -/
theorem C38_number_before_operator (F : FloatText) : ReadsAs F (asc ['(','1','+','2',')']) [startEvent .sexp] (some .ionException) :=
  reads_of_answers (TextWriter.ascii_of_all (by decide)) (TextReader.evalN_sound (m := 200) (n := 8) rfl)

/-- **C38**  At the top level, `$ion__0` is not read as a symbol, but rejected. -/
theorem C38_marker_without_version (F : FloatText) : ReadsAs F (asc ['$','i','o','n','_','_','0']) [] (some .ionException) :=
  reads_of_answers (TextWriter.ascii_of_all (by decide)) (TextReader.evalN_sound (m := 200) (n := 8) rfl)

/-- **C38**  (why no quoted symbols after long strings)  An annotation `''` after a long string makes the reader raise `AttributeError`. -/
theorem C38_empty_symbol_after_long_string (F : FloatText) : ReadsAs F (asc ['\'','\'','\'','a','\'','\'','\'',' ','\'','\'',':',':','5']) [readScalar .string (some (.str [97]))] (some .attributeError) :=
  reads_of_answers (TextWriter.ascii_of_all (by decide)) (TextReader.evalN_sound (m := 200) (n := 8) rfl)

/-- **C38**  An underscore in an exponent, which is not Ion, is accepted. -/
theorem C38_underscore_in_exponent (F : FloatText) : ReadsAs F (asc ['1','d','1','_','0']) [readScalar .decimal (some (.decimal ⟨false, 1, 10⟩))] none :=
  reads_of_answers (TextWriter.ascii_of_all (by decide)) (TextReader.evalN_sound (m := 200) (n := 8) rfl)

/-- **C38**  (why line comments must end with a line break)  A line comment at the end of the text, without a line break, after an annotated symbol: the reader rejects the text. -/
theorem C38_comment_at_the_end (F : FloatText) : ReadsAs F (asc ['a',':',':','b',' ','/','/','x']) [] (some .ionException) :=
  reads_of_answers (TextWriter.ascii_of_all (by decide)) (TextReader.evalN_sound (m := 200) (n := 8) rfl)

/-- **C38**  (why `bytes` must be ASCII)  The reader takes each byte for a character: the string `"é"` in UTF-8 is read as the two
characters `Ã©`. -/
theorem C38_bytes_read_as_latin1 (F : FloatText) :
    readBytes F [[34, 0xC3, 0xA9, 34]] 2 = [.ok (readScalar .string (some (.str [0xC3, 0xA9]))), .ok ION_STREAM_END_EVENT] := by
  have h : TextReader.Answers F {} [34, 0xC3, 0xA9, 34] [readScalar .string (some (.str [0xC3, 0xA9]))] none := TextReader.evalN_sound (m := 100) (n := 5) rfl
  exact run_of_answers h ⟨rfl, by simp⟩ fun p hp => units_bytes fun c hc => by
    simp only [List.mem_singleton] at hp
    subst hp
    revert c
    decide

/-- **C38**  A blob with a quote in it is delivered, but reading the value of the event raises `TypeError`. -/
theorem C38_blob_with_quote (F : FloatText) : ReadsAs F (asc ['{','{','\'','a','b','c','d','}','}'])
    [{ eventType := .scalar, ionType := some .blob, value := .error .typeError, depth := some 0 }] none :=
  reads_of_answers (TextWriter.ascii_of_all (by decide)) (TextReader.evalN_sound (m := 200) (n := 8) rfl)

/-- **C38** (negative)  `2007-01T02` is not a timestamp; the reader takes it for `2007-01-02`. -/
theorem C38_date_with_t (F : FloatText) : ReadsAs F (asc ['2','0','0','7','-','0','1','T','0','2'])
    [readScalar .timestamp (some (.timestamp (.ts ⟨⟨2007, 1, 2, 0, 0, 0, 0, none⟩, some .day, 0, ⟨false, 0, 0⟩⟩)))] none :=
  reads_of_answers (TextWriter.ascii_of_all (by decide)) (TextReader.evalN_sound (m := 200) (n := 8) rfl)

/-- **C38**  A date that does not exist is delivered, but reading the value of the event raises `ValueError`. -/
theorem C38_impossible_date (F : FloatText) : ReadsAs F (asc ['2','0','2','0','-','1','3','-','0','1'])
    [{ eventType := .scalar, ionType := some .timestamp, value := .error .valueError, depth := some 0 }] none :=
  reads_of_answers (TextWriter.ascii_of_all (by decide)) (TextReader.evalN_sound (m := 200) (n := 8) rfl)

end Ion.Text

import Verif.Props.TextGrammar
import Verif.TextWrong
set_option linter.unusedSimpArgs false
/-!
# C50: wrong texts are rejected

The specification of wrong texts is in `TextPrefixSpec.lean` and `TextBadSpec.lean`.  They are rejected with `IonException`,
after the events of what stands before the mistake.
-/
namespace Ion.Text
open Ion Ion.Spec Ion.TextSpec

/-- Whoever reads this text, in whatever pieces, as `str` or (if it is ASCII) as `bytes`, gets these events and then `IonException`. -/
def Rejects (F : FloatText) (t : List Nat) (es : List IonEvent) : Prop :=
  ∀ ps, Pieces ps t → ((∀ c ∈ t, c ≤ 0x10FFFF) → readStr F ps (es.length + 1) = es.map .ok ++ [.error .ionException]) ∧
    ((∀ c ∈ t, c < 128) → readBytes F ps (es.length + 1) = es.map .ok ++ [.error .ionException])

theorem rejects_of_answers {F : FloatText} {t : List Nat} {es : List IonEvent} (h : (∀ c ∈ t, c ≤ 0x10FFFF) → TextReader.Answers F {} t es (some .ionException)) : Rejects F t es := by
  intro ps hp
  refine ⟨fun hc => run_of_answers (h hc) hp fun p hp' => units_str fun c hc' => ?_,
    fun hc => run_of_answers (h fun c hc' => ?_) hp fun p hp' => units_bytes fun c hc' => ?_⟩
  · have := piece_bound hp hc p hp' c hc'
    omega
  · have := hc c hc'
    omega
  · have := piece_bound hp hc p hp' c hc'
    omega

theorem wrong_answers {F : FloatText} {pos : Position} {p : Place} {d : Nat} {t r : List Nat} {es : List IonEvent} (ht : IsAt F pos p d t es r) (hw : IsWrong pos p r) (hr : IsToken r)
    (hle : ∀ c ∈ r, c ≤ 0x10FFFF) : TextReader.Answers F {} (t ++ r) es (some .ionException) :=
  letI : TextReader.Fate := ⟨some .ionException⟩
  TextReader.answers_of_events (TextReader.wrong_events rfl ht hw hr hle)

/-- **C50**  At any place in any text, what may not follow there raises `IonException`, after the events of all that stands before. -/
theorem C50_rejects_wrong_text_partial (F : FloatText) (pos : Position) (p : Place) (d : Nat) (t r : List Nat) (es : List IonEvent) (ht : IsAt F pos p d t es r) (hw : IsWrong pos p r) (hr : IsToken r) :
    Rejects F (t ++ r) es :=
  rejects_of_answers fun hle => wrong_answers ht hw hr fun c hc => hle c (by simp [hc])

/-- **C50**  (the specification of wrong texts)  None of them is a document of the grammar. -/
theorem C50_wrong_text_is_no_document (F : FloatText) (pos : Position) (p : Place) (d : Nat) (t r : List Nat) (es : List IonEvent) (ht : IsAt F pos p d t es r) (hw : IsWrong pos p r) (hr : IsToken r)
    (hle : ∀ c ∈ r, c ≤ 0x10FFFF) (ws bs : List Nat) (items : List (Option (Spec.Node TSym))) (hws : IsTrivia ws) (hdoc : IsDoc F bs items) : ws ++ bs ≠ t ++ r := by
  intro h
  have h1 := wrong_answers ht hw hr hle
  have h2 := TextReader.answers_of_events (TextReader.doc_events hws hdoc)
  rw [h] at h2
  have := (TextReader.answers_det h1 h2).2
  exact absurd this (by decide)

/-- **C38**  (the specification of texts)  The events of a document are determined by its text. -/
theorem C38_grammar_unambiguous (F : FloatText) (ws bs ws' bs' : List Nat) (items items' : List (Option (Spec.Node TSym))) (hws : IsTrivia ws) (hdoc : IsDoc F bs items)
    (hws' : IsTrivia ws') (hdoc' : IsDoc F bs' items') (h : ws ++ bs = ws' ++ bs') : docEvents items = docEvents items' := by
  have h1 := TextReader.answers_of_events (TextReader.doc_events hws hdoc)
  have h2 := TextReader.answers_of_events (TextReader.doc_events hws' hdoc')
  rw [h] at h1
  exact (TextReader.answers_det h1 h2).1

/-! ## Examples -/

theorem int_one (p : Place) (hp : p ≠ some .struct) : IsValue F p [49] (.scalar none [] (.int 1)) :=
  .scalar p [] [] [49] none [] _ (.none _ hp) .nil (.int false [49] [49] (.inr ⟨49, [], rfl, by omega, by omega, by simp [Digits]⟩) (.cons _ _ _ .nil)) fun _ _ => TextWriter.not_marker (by decide)

/-- `[1,`, before anything. -/
theorem open_list (F : FloatText) (r : List Nat) : IsOpen F (some .list) 1 (asc ['[','1',',']) [startEvent .list, innerEvent .int (.int 1)] r := by
  have h1 : IsBefore F r .list ([49] ++ ([] ++ 44 :: ([] ++ []))) [.scalar none [] (.int 1)] :=
    .comma .list [49] [] [] [] _ [] (by simp) (int_one _ (by simp)) (apart_of gap0 (fun _ => .inl rfl) id id (by decide)) .nil (.nil _)
  exact .inside none 0 [] [] [] [] [] _ r none [] .list _ (.top [] [] _ [] .nil .nil) (.none _ (by simp)) .nil .nil (by simp) h1 (by simp)

/-- `[1,,` -/
example (F : FloatText) : Rejects F (asc ['[','1',',',',','2',']']) [startEvent .list, innerEvent .int (.int 1)] :=
  C50_rejects_wrong_text_partial F .start (some .list) 1 (asc ['[','1',',']) (asc [',','2',']']) _ (.start _ _ _ _ _ (open_list F _)) (.start _ _ _ (by simp [MayFollow, BeginsValue, IdentStart, Digit, OpChar, asc, closing]))
    (by rintro c r' h; simp only [asc, List.map_cons, List.cons.injEq] at h; rw [← h.1]; simp [IsTokenChar, IsSpace])

/-- `[1,` and nothing more -/
example (F : FloatText) : Rejects F (asc ['[','1',',']) [startEvent .list, innerEvent .int (.int 1)] :=
  C50_rejects_wrong_text_partial F .start (some .list) 1 (asc ['[','1',',']) [] _ (.start _ _ _ _ _ (open_list F _)) (.unclosed _) (by intro c r h; cases h)

/-- `[1,"\q` -/
example (F : FloatText) : Rejects F (asc ['[','1',',','"','\\','q','"',']']) [startEvent .list, innerEvent .int (.int 1)] :=
  C50_rejects_wrong_text_partial F .start (some .list) 1 (asc ['[','1',',']) (asc ['"','\\','q','"',']']) _ (.start _ _ _ _ _ (open_list F _))
    (.value _ _ (by simp) (.string _ (.bad _ (.escape 113 _ ⟨by simp [escapes], by simp [IsHexEscape], by omega, by omega⟩))))
    (by rintro c r' h; simp only [asc, List.map_cons, List.cons.injEq] at h; rw [← h.1]; simp [IsTokenChar, IsSpace])

theorem not_numeral : ¬ IsNumeral (asc ['1', 'x']) := by
  intro h
  generalize ht : asc ['1', 'x'] = t at h
  cases h with
  | coefficient t co all n hco hs =>
    subst ht
    have hl : co = [49, 120] := by
      cases hs with
      | cons _ _ u hs =>
        cases hs with
        | cons _ _ u hs =>
          cases hs
          rfl
    · cases hco with
        | whole _ h =>
          subst hl
          rcases h with h | ⟨d, r, h, _, _, h'⟩
          · exact absurd h (by decide)
          · simp only [List.cons.injEq] at h
            have := h' 120 (by rw [← h.2]; simp)
            exact absurd this.2 (by decide)
        | point ds fs _ _ =>
          have : 46 ∈ [49, 120] := by rw [← hl]; simp
          exact absurd this (by decide)
  | exponent t co all n e s u ds _ _ he =>
    have : e ∈ asc ['1', 'x'] := by rw [ht]; simp
    simp only [asc, List.map_cons, List.map_nil, List.mem_cons, List.not_mem_nil, or_false] at this he
    rcases this with rfl | rfl <;> exact absurd he (by decide)
  | radix => exact absurd ht (by simp [asc])

/-- `[1,1x]` -/
example (F : FloatText) : Rejects F (asc ['[','1',',','1','x',']']) [startEvent .list, innerEvent .int (.int 1)] :=
  C50_rejects_wrong_text_partial F .start (some .list) 1 (asc ['[','1',',']) (asc ['1','x',']']) _ (.start _ _ _ _ _ (open_list F _))
    (.value _ _ (by simp) (.number _ (.unsigned 49 [120] [93] ⟨by omega, by omega⟩ ⟨by simp [IsStop, asc, IsSpace], by rintro c r' ⟨⟩; simp [IsStop, asc]⟩ not_numeral fun h => by
      generalize ht : [(49 : Nat), 120] = t at h
      cases h with
      | year y hl _ => have := congrArg List.length ht; simp [hl] at this
      | month y _ _ _ hl => have := congrArg List.length ht; simp [hl] at this
      | day y _ _ _ _ _ _ _ hl => have := congrArg List.length ht; simp [hl] at this; omega)))
    (by rintro c r' h; simp only [asc, List.map_cons, List.cons.injEq] at h; rw [← h.1]; simp [IsTokenChar, IsSpace])

/-- `[1,a@]` -/
example (F : FloatText) : Rejects F (asc ['[','1',',','a','@',']']) [startEvent .list, innerEvent .int (.int 1)] :=
  C50_rejects_wrong_text_partial F .start (some .list) 1 (asc ['[','1',',']) (asc ['a','@',']']) _ (.start _ _ _ _ _ (open_list F _))
    (.value _ _ (by simp) (.word _ (.char [97] 64 [93] ⟨by simp [IdentStart], by simp⟩ (by simp [BadAfter, IdentStart, Digit, IsStop, IsSpace, asc]) (by simp [asc]))))
    (by rintro c r' h; simp only [asc, List.map_cons, List.cons.injEq] at h; rw [← h.1]; simp [IsTokenChar, IsSpace])

/-- `[1,true::]` -/
example (F : FloatText) : Rejects F (asc ['[','1',',','t','r','u','e',':',':']) [startEvent .list, innerEvent .int (.int 1)] :=
  C50_rejects_wrong_text_partial F .start (some .list) 1 (asc ['[','1',',']) (asc ['t','r','u','e',':',':']) _ (.start _ _ _ _ _ (open_list F _))
    (.value _ _ (by simp) (.word _ (.keyword (asc ['t','r','u','e']) [58] (by simp [reserved]))))
    (by rintro c r' h; simp only [asc, List.map_cons, List.cons.injEq] at h; rw [← h.1]; simp [IsTokenChar, IsSpace])

/-- `[1,null.foo]` -/
example (F : FloatText) : Rejects F (asc ['[','1',',','n','u','l','l','.','f','o','o',']']) [startEvent .list, innerEvent .int (.int 1)] :=
  C50_rejects_wrong_text_partial F .start (some .list) 1 (asc ['[','1',',']) (asc ['n','u','l','l','.','f','o','o',']']) _ (.start _ _ _ _ _ (open_list F _))
    (.value _ _ (by simp) (.word _ (.null (asc ['f','o','o',']']) (by intro ty r' h; exact absurd h (by cases ty <;> simp [typeName, asc])))))
    (by rintro c r' h; simp only [asc, List.map_cons, List.cons.injEq] at h; rw [← h.1]; simp [IsTokenChar, IsSpace])

/-- `[1,+x]` -/
example (F : FloatText) : Rejects F (asc ['[','1',',','+','x',']']) [startEvent .list, innerEvent .int (.int 1)] :=
  C50_rejects_wrong_text_partial F .start (some .list) 1 (asc ['[','1',',']) (asc ['+','x',']']) _ (.start _ _ _ _ _ (open_list F _))
    (.value _ _ (by simp) (.word _ (.plus (asc ['x',']']) (by simp) (by intro r' h; exact absurd h (by simp [asc])))))
    (by rintro c r' h; simp only [asc, List.map_cons, List.cons.injEq] at h; rw [← h.1]; simp [IsTokenChar, IsSpace])

/-- `[1,{{abc}}]` -/
example (F : FloatText) : Rejects F (asc ['[','1',',','{','{','a','b','c','}','}',']']) [startEvent .list, innerEvent .int (.int 1)] :=
  C50_rejects_wrong_text_partial F .start (some .list) 1 (asc ['[','1',',']) (asc ['{','{','a','b','c','}','}',']']) _ (.start _ _ _ _ _ (open_list F _))
    (.value _ _ (by simp) (.blob _ (.length [97, 98, 99] [93] 3 0 (.digit _ _ _ _ ⟨26, by omega, rfl⟩ (.digit _ _ _ _ ⟨27, by omega, rfl⟩ (.digit _ _ _ _ ⟨28, by omega, rfl⟩ .nil))) (by simp))))
    (by rintro c r' h; simp only [asc, List.map_cons, List.cons.injEq] at h; rw [← h.1]; simp [IsTokenChar, IsSpace])


/-- `{`, before anything. -/
theorem open_struct (F : FloatText) (r : List Nat) (hr : ∃ c x, r = c :: x ∧ c ≠ 123) : IsOpen F (some .struct) 1 [123] [startEvent .struct] r :=
  .inside none 0 [] [] [] [] [] _ r none [] .struct _ (.top [] [] _ [] .nil .nil) (.none _ (by simp)) .nil .nil (by simp) (.nil _) (by simpa using hr)

/-- `{null:1}` -/
example (F : FloatText) : Rejects F (asc ['{','n','u','l','l',':','1','}']) [startEvent .struct] :=
  C50_rejects_wrong_text_partial F .start (some .struct) 1 [123] (asc ['n','u','l','l',':','1','}']) _ (.start _ _ _ _ _ (open_struct F _ ⟨_, _, rfl, by decide⟩))
    (.field _ (.keyword (asc ['n','u','l','l']) (asc [':','1','}']) (by simp [reserved]) (by rintro c r' h; simp only [asc, List.map_cons, List.cons.injEq] at h; exact .inl h.1.symm)))
    (by rintro c r' h; simp only [asc, List.map_cons, List.cons.injEq] at h; rw [← h.1]; simp [IsTokenChar, IsSpace])

/-- `{a b:1}` -/
example (F : FloatText) : Rejects F (asc ['{','a',' ','b',':','1','}']) [startEvent .struct] :=
  C50_rejects_wrong_text_partial F .start (some .struct) 1 [123] (asc ['a',' ','b',':','1','}']) _ (.start _ _ _ _ _ (open_struct F _ ⟨_, _, rfl, by decide⟩))
    (.field _ (.noColon [97] [32] (asc ['b',':','1','}']) (.text [97]) (.sym _ _ (.ident [97] ⟨by simp [IdentStart], by simp⟩ (by simp [reserved, asc]) (by rintro ⟨ds, h, _⟩; simp at h)))
      ⟨.space 32 [] (by simp [IsSpace]) .nil, by simp⟩ (by simp) (by rintro c r' h; simp only [asc, List.map_cons, List.cons.injEq] at h; rw [← h.1]; simp [IsTokenChar, IsSpace]) (by simp [NoNext, asc]) (by simp) (by simp)))
    (by rintro c r' h; simp only [asc, List.map_cons, List.cons.injEq] at h; rw [← h.1]; simp [IsTokenChar, IsSpace])

end Ion.Text

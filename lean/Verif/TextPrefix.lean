import Verif.TextValues
import Verif.TextPrefixSpec
set_option linter.unusedSimpArgs false
/-!
# The text reader on the beginning of a text

The reader delivers the events of the complete values and of the open containers, and is then at the place where the next
token starts.
-/
namespace Ion.TextReader
open Ion Ion.TextSpec
variable [Fate]

section
variable {F : FloatText} {P : Loc} {r g : List Nat} {es : List IonEvent} {cm : Bool}

/-- A token starts here, or the text ends. -/
def Starts (r : List Nat) : Prop := ∀ c r', r = c :: r' → followStart c = true

omit [Fate] in
theorem token_start {c : Nat} (h : TextSpec.IsTokenChar c) : followStart c = true := by
  obtain ⟨h1, h2, h3⟩ := h
  have h4 : isWs c = false := by
    simp only [TextSpec.IsSpace] at h2
    simp only [isWs, isWsNotNl, isNewline, Bool.or_eq_false_iff, decide_eq_false_iff_not]
    omega
  have h5 : c ≠ EOF := by simp only [EOF]; omega
  simp [followStart, h3, h4, h5]

omit [Fate] in
theorem endsBefore {p : TextSpec.Place} {n : Spec.Node TextSpec.TSym} {v rest : List Nat} (hp : Same P p) (h : TextSpec.EndsBefore p n v g rest) (hr : StartsOp P false rest) :
    EndsAt P n v g rest := by
  obtain ⟨h1, h2⟩ := h
  rcases h1 with h1 | ⟨h1, c, r', rfl, hc⟩ | ⟨rfl, rfl, h1⟩
  · have := ends_of (P := P) (m := []) h1 (by simpa using hr) (by simpa using h2) (by decide) (by decide) (by decide)
    simpa using this
  · have key : ∀ c ∈ [41, 44, 93, 125], c ∈ enders ∧ c ≠ 39 ∧ c ≠ 47 := by decide
    exact ends_of (rest := []) (m := c :: r') h1 hr h2 (key c hc).1 (key c hc).2.1 (key c hc).2.2
  · exact joined_ends hp.ty h1 hr h2

omit [Fate] in
theorem before_start {ty : Spec.CType} {bs : List Nat} {items : List (Spec.Node TextSpec.TSym)} (h : TextSpec.IsBefore F r ty bs items) (ht : Starts r) :
    ∀ c r', bs ++ r = c :: r' → (followStart c = true ∨ (c = 47 ∧ ty = .sexp ∧ OpHead r')) ∧ (bs ≠ [] → ty = .struct → c ≠ 123) := by
  have hne : ∀ {bs' : List Nat} {items' : List (Spec.Node TextSpec.TSym)}, TextSpec.IsBefore F r ty bs' items' → ∀ c r', bs' ++ r = c :: r' → c ≠ EOF := by
    intro bs' items' h c r' hc
    cases h with
    | nil =>
      have := ht c r' hc
      simp only [followStart, Bool.and_eq_true, decide_eq_true_eq] at this
      exact this.2
    | comma _ v g w rest n items hty hv =>
      obtain ⟨d, r1, rfl, h1, _⟩ := value_start hv
      simp only [List.cons_append, List.cons.injEq] at hc
      rw [← hc.1]
      exact h1.ne
    | sexp v g rest n items hv =>
      obtain ⟨d, r1, rfl, h1, _⟩ := value_start hv
      simp only [List.cons_append, List.cons.injEq] at hc
      rw [← hc.1]
      exact h1.ne
  intro c r' hc
  cases h with
  | nil => exact ⟨.inl (ht c r' hc), fun h => absurd rfl h⟩
  | comma _ v g w rest n items hty hv =>
    obtain ⟨d, r1, rfl, h1, h2, h3⟩ := value_start hv
    simp only [List.cons_append, List.cons.injEq] at hc
    rw [← hc.1]
    exact ⟨.inl (Or.resolve_right h1 fun h => hty (Option.some.inj h.2.1)), fun _ ht => h3 (by rw [ht])⟩
  | sexp v g rest n items hv hg hne' hrest =>
    obtain ⟨d, r1, rfl, h1, h2, h3⟩ := value_start hv
    simp only [List.cons_append, List.cons.injEq] at hc
    rw [← hc.1]
    refine ⟨?_, fun _ ht => h3 (by rw [ht])⟩
    rcases h1 with h1 | ⟨rfl, _, ho, h4⟩
    · exact .inl h1
    · refine .inr ⟨rfl, rfl, ?_⟩
      rw [← hc.2, List.append_assoc, List.append_assoc]
      refine h4 _ ?_
      rcases hg.1 with h5 | ⟨h5, c', r'', h6, h7⟩ | ⟨_, _, h5⟩
      · have := apart_opHead (m := []) ho h5 (fun c r' hc => hne hrest c r' hc) (fun h => absurd h hne')
        simpa using this
      · have key : ∀ c ∈ [41, 44, 93, 125], c ≠ 42 ∧ c ≠ 47 ∧ c ≠ EOF := by decide
        exact apart_opHead (rest := []) ho h5 (by simp) fun _ => ⟨c', r'', h6, key c' h7⟩
      · exact absurd ho (word_notOperator h5.word)

/-- The values of an open container. -/
theorem before_ok {ty : Spec.CType} {bs : List Nat} {items : List (Spec.Node TextSpec.TSym)} (h : TextSpec.IsBefore F r ty bs items) (ht : Starts r) :
    ∀ {P : Loc} {cm : Bool}, Same P (some ty) → (∀ cm, At F P (decide (P.ty = some .struct)) false none cm r es) →
      Begin F P (decide (P.ty = some .struct)) cm (bs ++ r) (TextSpec.eventsOfAll P.outer.length items ++ es) := by
  induction h with
  | nil ty =>
    intro P cm _ h
    exact .of_at (by simpa [TextSpec.eventsOfAll] using h cm) (head_of ht)
  | comma ty v g w rest n items hty hv hg hw hrest ih =>
    intro P cm hp h
    have ho : P.outer ≠ [] := fun h0 => by simpa using hp.top h0
    rw [TextSpec.eventsOfAll, List.append_assoc]
    simp only [List.append_assoc, List.cons_append]
    refine value_ok hv hp (ends_of (rest := []) hg (startsOp_of fun c r' hc => ?_) (by simp) (by decide : 44 ∈ enders) (by decide : 44 ≠ 39) (by decide : 44 ≠ 47)) ?_
    · simp only [List.nil_append, List.cons.injEq] at hc
      rw [← hc.1]
      decide
    · have hd : P.env.isDelimited = true := by
        have := hp.ty
        simp only [Option.map_some] at this
        simp only [Loc.env, Env.isDelimited, this]
        cases ty <;> first | rfl | exact absurd rfl hty
      refine at_comma (cm := false) hd (at_trivia hw (fun h0 => absurd h0 ho) (fun h0 => absurd h0 ho) ((ih hp h).idle ?_)) ho
      refine head_of fun c r' hc => ?_
      exact ((before_start hrest ht c r' hc).1).resolve_right fun h => hty h.2.1
  | sexp v g rest n items hv hg hne hrest ih =>
    intro P cm hp h
    rw [TextSpec.eventsOfAll, List.append_assoc]
    simp only [List.append_assoc]
    have hs : decide (P.ty = some .struct) = false := by rw [hp.ty]; rfl
    have hd : P.env.isDelimited = false := by
      simp only [Loc.env, Env.isDelimited, hp.ty]; rfl
    refine value_ok hv hp (endsBefore hp hg fun c r' hc => (before_start hrest ht c r' hc).1.imp_right fun h => ⟨h.1, rfl, hp.ty, h.2.2⟩) ?_
    have := ih (cm := P.outer.isEmpty) hp h
    rw [hs] at this
    exact this.rest hd fun h0 => absurd h0 hne

omit [Fate] in
theorem docBefore_start {bs : List Nat} {items : List (Option (Spec.Node TextSpec.TSym))} (h : TextSpec.IsDocBefore F r bs items) (ht : Starts r) :
    ∀ c r', bs ++ r = c :: r' → followStart c = true := by
  intro c r' hc
  cases h with
  | nil => exact ht c r' hc
  | marker g rest items _ _ _ _ =>
    simp only [asc, List.map_cons, List.map_nil, List.cons_append, List.cons.injEq] at hc
    rw [← hc.1]
    decide
  | value v g rest n items hv _ _ =>
    obtain ⟨d, r1, rfl, h1, _⟩ := value_start hv
    simp only [List.cons_append, List.cons.injEq] at hc
    rw [← hc.1]
    refine Or.resolve_right h1 fun h => ?_
    cases h.2.1

/-- A version marker at the top level. -/
theorem at_marker {rest : List Nat} {es : List IonEvent} (hg : TextSpec.IsGap g) (hg0 : g = [] → rest = [] ∨ TextSpec.Opens rest) (hst : ∀ c r, rest = c :: r → followStart c = true ∧ c ≠ 58)
    (h : At F ⟨[], none⟩ false false none true rest es) :
    At F ⟨[], none⟩ false false none cm (asc ['$','i','o','n','_','1','_','0'] ++ (g ++ rest)) (ION_VERSION_MARKER_EVENT :: es) := by
  have hfo : Follow ⟨[], none⟩ g rest := .of hg.1 fun c r' h => (hst c r' h).1
  have hnc : ∀ r', rest ≠ 58 :: r' := fun r' h => (hst 58 r' h).2 rfl
  have hen : (g ++ rest).headD EOF ∈ enders := gap_enders hg fun hn => by
    rcases hg0 hn with rfl | ⟨c, r', rfl, h1⟩
    · decide
    · have : ∀ c ∈ [91, 40, 123, 34, 39], c ∈ enders := by decide
      exact this c h1
  have hsym : TextSpec.IsSym (asc ['$','i','o','n','_','1','_','0']) (.text (asc ['$','i','o','n','_','1','_','0'])) := by
    refine .ident _ ?_ (by decide) ?_
    · simp [TextSpec.IsIdent, asc, TextSpec.IdentStart, TextSpec.Digit]
    · rintro ⟨ds, h1, _, h2⟩
      simp only [asc, List.map_cons, List.map_nil, List.cons.injEq] at h1
      have := h2 105 (by rw [← h1.2]; decide)
      simp [TextSpec.Digit] at this
  have hmark : TextSpec.IsMarkerText (asc ['$','i','o','n','_','1','_','0']) :=
    ⟨[49], [48], by simp [asc], by simp [TextSpec.Digits, TextSpec.Digit], by simp [TextSpec.Digits, TextSpec.Digit], by simp⟩
  refine at_sym (P := ⟨[], none⟩) (f := none) (as := []) hsym hfo (.inr (.inl hen)) (fun h0 => absurd h0 (by decide)) (by simp) fun t ht => ⟨fun h1 => by simp at h1, ?_⟩
  rcases ht with ⟨h1, _⟩ | ⟨_, _, rfl, _⟩
  · exact absurd ⟨rfl, hmark⟩ h1
  · have key : false = false ∧ ((⟨[], none⟩ : Loc).ty = some .struct → (none : Option SymbolToken) ≠ none) ∧ ∃ e es', ION_VERSION_MARKER_EVENT :: es = e :: es' ∧
        (dec none []).symbolEvent (⟨[], none⟩ : Loc).env.depth (.ivm ⟨some (asc ['$','i','o','n','_','1','_','0']), none, none⟩) = .ok e ∧
        (e.eventType ≠ .containerStart ∧ e.eventType.isStreamSignal = false) ∧ After F ⟨[], none⟩ rest es' :=
      ⟨rfl, by simp, ION_VERSION_MARKER_EVENT, _, rfl, rfl, by decide, (Rest.of_at (fun _ => rfl) h (head_of fun c r' h => (hst c r' h).1)).toAfter⟩
    cases rest with
    | nil => exact .inr key
    | cons c rest =>
      unfold SymK
      split
      · next hc => exact absurd hc (hnc _)
      · exact .inr key

/-- A marker of an unknown version at the top level. -/
theorem at_unknown {i j rest : List Nat} (h0 : Fate.o = some .ionException) (hi : TextSpec.Digits i) (hj : TextSpec.Digits j) (hj0 : j ≠ []) (hne : (i, j) ≠ ([49], [48])) (hg : TextSpec.IsGap g)
    (hg0 : g = [] → rest = [] ∨ TextSpec.Opens rest) (hst : ∀ c r, rest = c :: r → followStart c = true ∧ c ≠ 58) :
    At F ⟨[], none⟩ false false none cm ((asc ['$','i','o','n','_'] ++ (i ++ 95 :: j)) ++ (g ++ rest)) [] := by
  have hfo : Follow ⟨[], none⟩ g rest := .of hg.1 fun c r' h => (hst c r' h).1
  have hnc : ∀ r', rest ≠ 58 :: r' := fun r' h => (hst 58 r' h).2 rfl
  have hen : (g ++ rest).headD EOF ∈ enders := gap_enders hg fun hn => by
    rcases hg0 hn with rfl | ⟨c, r', rfl, h1⟩
    · decide
    · have : ∀ c ∈ [91, 40, 123, 34, 39], c ∈ enders := by decide
      exact this c h1
  have hsym : TextSpec.IsSym (asc ['$','i','o','n','_'] ++ (i ++ 95 :: j)) (.text (asc ['$','i','o','n','_'] ++ (i ++ 95 :: j))) := by
    refine .ident _ ?_ ?_ ?_
    · refine ⟨.inr (.inr (.inl rfl)), fun d hd => ?_⟩
      have hd : d ∈ [105, 111, 110, 95] ++ (i ++ 95 :: j) := hd
      simp only [List.nil_append, List.cons_append, List.mem_cons, List.mem_append] at hd
      rcases hd with h | h | h | h | h | h | h
      · rw [h]; exact .inl (.inl (by decide))
      · rw [h]; exact .inl (.inl (by decide))
      · rw [h]; exact .inl (.inl (by decide))
      · rw [h]; exact .inl (.inr (.inr (.inr rfl)))
      · exact .inr (hi d h)
      · rw [h]; exact .inl (.inr (.inr (.inr rfl)))
      · exact .inr (hj d h)
    · simp [TextSpec.reserved, asc]
    · rintro ⟨ds, h1, _, h2⟩
      simp only [asc, List.map_cons, List.map_nil, List.cons_append, List.cons.injEq] at h1
      have := h2 105 (by rw [← h1.2]; simp)
      simp [TextSpec.Digit] at this
  have hmark : TextSpec.IsMarkerText (asc ['$','i','o','n','_'] ++ (i ++ 95 :: j)) := ⟨i, j, rfl, hi, hj, hj0⟩
  have htext : asc ['$','i','o','n','_'] ++ (i ++ 95 :: j) ≠ TEXT_ION_1_0 := by
    intro h
    have h : i ++ 95 :: j = [49, 95, 48] := List.append_cancel_left (as := asc ['$','i','o','n','_']) (h.trans (by decide))
    match i, hi, h, hne with
    | [], _, h, _ => simp at h
    | [a], _, h, hne => simp only [List.singleton_append, List.cons.injEq] at h; exact hne (by rw [h.1, h.2.2])
    | a :: b :: i, hi, h, _ =>
      simp only [List.cons_append, List.cons.injEq] at h
      have := hi b (by simp)
      rw [h.2.1] at this
      simp [TextSpec.Digit] at this
  refine at_sym (P := ⟨[], none⟩) (f := none) (as := []) hsym hfo (.inr (.inl hen)) (fun h0 => absurd (congrArg List.head? h0) (by simp [asc])) (by simp) fun t ht => ⟨fun h1 => by simp at h1, ?_⟩
  rcases ht with ⟨h1, _⟩ | ⟨_, _, rfl, _⟩
  · exact absurd ⟨rfl, hmark⟩ h1
  · have key : Void ⟨[], none⟩ false none [] (.ivm ⟨some (asc ['$','i','o','n','_'] ++ (i ++ 95 :: j)), none, none⟩) [] := by
      refine ⟨h0, rfl, rfl, rfl, rfl, ?_⟩
      simp only [Ctx.symbolEvent, Option.some.injEq, htext, if_false]
      rfl
    cases rest with
    | nil => exact .inl (.inr key)
    | cons c rest =>
      unfold SymK
      split
      · next hc => exact absurd hc (hnc _)
      · exact .inl (.inr key)

/-- The values at the top level. -/
theorem docBefore_ok {bs : List Nat} {items : List (Option (Spec.Node TextSpec.TSym))} (h : TextSpec.IsDocBefore F r bs items) (ht : Starts r)
    (hk : At F ⟨[], none⟩ false false none true r es) : At F ⟨[], none⟩ false false none true (bs ++ r) (TextSpec.docEvents items ++ es) := by
  induction h with
  | nil => simpa [TextSpec.docEvents] using hk
  | marker g rest items hg hg0 hnc hrest ih =>
    have hst := docBefore_start hrest ht
    rw [List.append_assoc, List.append_assoc]
    exact at_marker hg hg0 (fun c r' hc => ⟨hst c r' hc, by rintro rfl; exact hnc r' hc⟩) ih
  | value v g rest n items hval hg hrest ih =>
    have h1 := value_ok hval (P := ⟨[], none⟩) (cm := true) ⟨rfl, fun _ => rfl⟩ (endsBefore ⟨rfl, fun _ => rfl⟩ hg (startsOp_of (docBefore_start hrest ht)))
      (Rest.of_at (fun _ => rfl) ih (head_of (docBefore_start hrest ht)))
    have h2 := h1.idle (by
      obtain ⟨d, r', rfl, h1, h2, _⟩ := value_start hval
      have h1 := Or.resolve_right h1 fun h => by cases h.2.1
      simp only [followStart, Bool.and_eq_true, decide_eq_true_eq] at h1
      exact h1.1.2)
    simpa [TextSpec.docEvents, List.append_assoc] using h2

omit [Fate] in
theorem startOf_eq (d : Nat) (f : Option TextSpec.TSym) (as : List TextSpec.TSym) (ty : Spec.CType) :
    TextSpec.startOf d f as ty = startEv (f.map TextSpec.TSym.token) (as.map TextSpec.TSym.token) d ty.ty := by
  simp [TextSpec.startOf, startEv, Option.map_map, List.map_map, Function.comp_def]

omit [Fate] in
theorem starts_of (h : TextSpec.IsToken r) : Starts r := fun c r' hc => token_start (h c r' hc)

/-- What the reader does on the beginning of a text. -/
theorem open_events {p : TextSpec.Place} {d : Nat} {t : List Nat} {es : List IonEvent} (h : TextSpec.IsOpen F p d t es r) : Starts r → ∀ {es' : List IonEvent},
    (∀ P cm, Same P p → P.outer.length = d → (P.outer = [] → cm = true) → At F P (decide (P.ty = some .struct)) false none cm r es') → Events F {} (t ++ r) (es ++ es') := by
  induction h with
  | top ws bs r items hw hb =>
    intro ht es' hk
    rw [List.append_assoc]
    refine events_headNone (P := ⟨[], none⟩) (fun _ => rfl) (fun hn => absurd rfl hn) (fun _ _ => rfl) (at_trivia hw (fun _ => rfl) (fun _ => rfl) ?_)
    exact docBefore_ok hb ht (hk ⟨[], none⟩ true ⟨rfl, fun _ => rfl⟩ rfl fun _ => rfl)
  | inside p d t es name anns w body r f as ty items _ hn ha hw hwb hb hst ih =>
    intro ht es' hk
    have h0 : ∃ c r', opening ty :: (w ++ (body ++ r)) = c :: r' ∧ followStart c = true ∧ c ≠ 58 := ⟨_, _, rfl, by cases ty <;> decide⟩
    have h1 : Starts (name ++ (anns ++ opening ty :: (w ++ (body ++ r)))) := by
      obtain ⟨c, r', h2, h3, _⟩ := name_start hn (anns_start ha h0)
      intro c' r'' hc
      rw [h2] at hc
      simp only [List.cons.injEq] at hc
      rw [← hc.1]
      exact h3
    have h2 := ih h1 (es' := startOf d f as ty :: (eventsOfAll (d + 1) items ++ es')) ?_
    · simpa only [List.append_assoc, List.cons_append] using h2
    intro P cm hp hd _
    rw [startOf_eq]
    refine at_decorations hp hn ha (by simp) fun hst' cm => ?_
    rw [← hd]
    have hin : Same (P.inner ty.ty) (some ty) := ⟨rfl, fun h0 => by simp [Loc.inner] at h0⟩
    have hlen : (P.inner ty.ty).outer.length = P.outer.length + 1 := by simp [Loc.inner]
    have hdec : decide ((P.inner ty.ty).ty = some .struct) = decide (ty.ty = .struct) := by simp [Loc.inner]
    refine at_open ?_ ?_ (at1_trivia hw (fun h47 => ?_) (by simp [Loc.inner]) (by simp [Loc.inner]) ?_)
    · intro hty h3
      have h4 : w ++ body = [] := by
        simp only [List.append_eq_nil_iff] at h3 ⊢
        exact ⟨h3.1, h3.2.1⟩
      obtain ⟨c, r', rfl, _⟩ := hst hty h4
      simp at h3
    · intro hty c r' hc
      cases hw with
      | nil =>
        have h4 := before_start hb ht c r' hc
        have h5 : c ≠ EOF := by
          rcases h4.1 with this | ⟨rfl, _⟩
          · simp only [followStart, Bool.and_eq_true, decide_eq_true_eq] at this
            exact this.2
          · decide
        refine ⟨?_, h5⟩
        by_cases hbn : body = []
        · subst hbn
          obtain ⟨c', r'', rfl, h6⟩ := hst hty rfl
          simp only [List.nil_append, List.cons.injEq] at hc
          rw [← hc.1]
          exact h6
        · exact h4.2 hbn hty
      | space d' w hd' _ =>
        simp only [List.cons_append, List.cons.injEq] at hc
        rw [← hc.1]
        simp only [IsSpace] at hd'
        simp only [EOF]
        omega
      | comment cmt w hd' _ =>
        obtain ⟨m, rfl⟩ := comment_head hd'
        simp only [List.cons_append, List.cons.injEq] at hc
        rw [← hc.1]
        decide
    · cases body with
      | nil => exact absurd h47 (head_of ht)
      | cons d body => exact hwb body (by rw [show d = 47 from h47])
    · rw [← hdec, ← hlen]
      exact before_ok hb ht hin fun cm => hk _ _ hin (by rw [hlen, hd]) (fun h0 => by simp [Loc.inner] at h0)
end
end Ion.TextReader

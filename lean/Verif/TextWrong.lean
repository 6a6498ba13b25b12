import Verif.TextBadWords
set_option linter.unusedSimpArgs false
/-!
# Texts that the text reader rejects
-/
namespace Ion.TextReader
open Ion Ion.TextSpec
variable [Fate]

section
variable {F : FloatText} {P : Loc} {r : List Nat} {es : List IonEvent} {cm : Bool}
  {f : Option SymbolToken} {as : List SymbolToken}

/-! ## Texts -/

omit [Fate] in
theorem badValue_ne {p : TextSpec.Place} (h : TextSpec.BadValue p r) : r ≠ [] := by
  cases h with
  | longString _ h => cases h <;> simp [TextSpec.quotes3]
  | number _ h => cases h <;> simp
  | word _ h => cases h <;> simp [asc]
  | _ => simp

theorem at_badValue (h0 : Fate.o = some .ionException) {p : TextSpec.Place} (hp : Same P p) (hb : TextSpec.BadValue p r) (hle : ∀ c ∈ r, c ≤ 0x10FFFF) :
    At F P false false (childOf f as) cm r [] := by
  cases hb with
  | string r hb => exact at_badString h0 hb fun c hc => hle c (by simp [hc])
  | symbol r hb => exact at_badSymbol h0 hb fun c hc => hle c (by simp [hc])
  | longString r hb => exact at_badLong h0 hb hle
  | clob w r hw hb => exact at_badClob h0 (fun c hc => isWs_of (hw c hc)) hb fun c hc => hle c (by simp [hc])
  | longClob w r hw hb => exact at_badLongClob h0 (fun c hc => isWs_of (hw c hc)) hb fun c hc => hle c (by simp [hc])
  | number r hb => exact at_badNumber h0 hb hle
  | word r hb => exact at_badWord h0 hp hb hle
  | clobEnd w bs r t hw hb hr => exact at_badClobEnd h0 hw hb hr fun c hc => hle c (by simp [hc])
  | longClobEnd w s r t hw hs hr hn => exact at_badLongClobEnd h0 hw hs hr hn fun c hc => hle c (by simp [hc])
  | blob r hb => exact at_badBlob h0 hb

theorem at_badName (h0 : Fate.o = some .ionException) (hp : Same P (some .struct)) (hb : TextSpec.BadName r) (hle : ∀ c ∈ r, c ≤ 0x10FFFF) :
    At F P true false none cm r [] := by
  cases hb with
  | string r hb => exact at_badFieldString h0 hb fun c hc => hle c (by simp [hc])
  | symbol r hb => exact at_badSymbol (f := none) (as := []) h0 hb fun c hc => hle c (by simp [hc])
  | longString r hb => exact at_badLongField h0 hb hle
  | char w c r hw hc => exact at_badIdent (f := none) (as := []) h0 hp hw hc (hle c (by simp)) fun _ _ => rfl
  | keyword w r hw hr => exact at_keywordField h0 hw hr
  | noColon s g r a hs hg hb ht hr hi hq => exact at_noColon h0 hp hs hg hb ht hr hi hq

/-- The reader raises at what may not follow. -/
theorem wrong_events (h0 : Fate.o = some .ionException) {pos : TextSpec.Position} {p : TextSpec.Place} {d : Nat} {t : List Nat} (ht : TextSpec.IsAt F pos p d t es r)
    (hw : TextSpec.IsWrong pos p r) (hr : TextSpec.IsToken r) (hle : ∀ c ∈ r, c ≤ 0x10FFFF) : Events F {} (t ++ r) es := by
  have hst := starts_of hr
  cases ht with
  | start _ _ _ _ _ ho =>
    have := open_events ho hst (es' := [])
    rw [List.append_nil] at this
    refine this fun P cm hp hd hcm => ?_
    cases hw with
    | unclosed ty => exact ⟨rfl, .inr ⟨fun hn => by have := hp.top hn; simp at this, h0⟩⟩
    | start _ c r h => exact at_rejects h0 hp (hr c r rfl) h
    | value _ _ hne h =>
      have h1 : P.ty ≠ some .struct := by
        rw [hp.ty]
        cases p with
        | none => simp
        | some t => cases t <;> simp_all [Spec.CType.ty]
      rw [decide_eq_false h1]
      exact at_badValue (f := none) (as := []) h0 hp h hle
    | field _ h =>
      have h1 : P.ty = some .struct := hp.ty
      rw [decide_eq_true h1]
      exact at_badName h0 hp h hle
    | version i j g r _ hi hj0 hj hne hg hg0 hr' hn =>
      have h1 : P = ⟨[], none⟩ := by
        cases P with
        | mk outer ty =>
          have h2 : ty = none := hp.ty
          have h3 : outer = [] := by cases ho with | top => exact List.length_eq_zero_iff.1 hd
          rw [h2, h3]
      subst h1
      have := at_unknown (F := F) (cm := cm) h0 hi hj hj0 hne hg hg0 fun c r' hc => ⟨starts_of hr' c r' hc, hn c r' hc⟩
      simpa [List.append_assoc] using this
  | named _ _ t _ name anns _ f as ho hn ha hne =>
    by_cases hr0 : r = []
    · subst hr0
      have h1 : Starts (name ++ anns) := by
        obtain ⟨c', r'', h2, h3, _⟩ := name_start (rest := anns ++ [91]) hn (anns_start ha ⟨91, [], rfl, by decide, by decide⟩)
        intro c1 r1 hc
        rw [← List.append_assoc, hc] at h2
        simp only [List.cons_append, List.cons.injEq] at h2
        rw [h2.1]
        exact h3
      have h2 := open_events ho (by simpa using h1) (es' := [])
      rw [List.append_nil] at h2
      simp only [List.append_assoc, List.append_nil] at h2 ⊢
      exact h2 fun P cm hp hd hcm => at_decorationsEnd h0 hp hn ha hne
    have hrne : r ≠ [] := hr0
    obtain ⟨c, r', rfl⟩ : ∃ c r', r = c :: r' := by cases r with | nil => exact absurd rfl hrne | cons c r => exact ⟨c, r, rfl⟩
    have h1 : Starts (name ++ (anns ++ c :: r')) := by
      obtain ⟨c', r'', h2, h3, _⟩ := name_start (rest := anns ++ [91]) hn (anns_start ha ⟨91, [], rfl, by decide, by decide⟩)
      have h4 : ∃ l, name ++ anns = c' :: l := by
        rw [← List.append_assoc] at h2
        cases hl : name ++ anns with
        | nil => exact absurd hl hne
        | cons c'' l =>
          rw [hl] at h2
          simp only [List.cons_append, List.cons.injEq] at h2
          exact ⟨l, by rw [h2.1]⟩
      obtain ⟨l, h4⟩ := h4
      intro c1 r1 hc
      rw [← List.append_assoc, h4] at hc
      simp only [List.cons_append, List.cons.injEq] at hc
      rw [← hc.1]
      exact h3
    have h2 := open_events ho h1 (es' := [])
    rw [List.append_nil] at h2
    simp only [List.append_assoc]
    refine h2 fun P cm hp hd hcm => at_decorations hp hn ha (fun h => absurd h hrne) fun _ cm => ?_
    cases hw with
    | named _ _ _ h =>
      refine at_rejectsNamed h0 hp (hr c r' rfl) h ?_
      cases hn with
      | some => exact .inl (by simp)
      | none =>
        cases ha with
        | nil => simp at hne
        | cons => exact .inr (by simp)
    | namedValue _ _ h => exact at_badValue h0 hp h hle
  | after ty _ t es' v g _ n ho hty hv hg =>
    cases hw with
    | after _ c r h1 h2 =>
      have h3 : Starts (v ++ (g ++ c :: r)) := by
        obtain ⟨d, r1, rfl, h4, _⟩ := value_start hv
        intro c' r' hc
        simp only [List.cons_append, List.cons.injEq] at hc
        rw [← hc.1]
        exact Or.resolve_right h4 fun h => hty (Option.some.inj h.2.1)
      have h4 := open_events ho h3 (es' := eventsOf d n)
      simp only [List.append_assoc]
      refine h4 fun P cm hp hd hcm => ?_
      have h5 := value_ok hv (cm := cm) hp (endsBefore hp hg (startsOp_of hst)) (after_rejects (F := F) (r := r) h0 hp hty (hr c r rfl) h1 h2)
      rw [List.append_nil, hd] at h5
      exact h5.idle (head_of h3)
end
end Ion.TextReader

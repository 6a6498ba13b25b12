import Verif.TextSafe
set_option linter.unusedSimpArgs false
/-!
# The container generator never fails an assertion

The invariant of the container generator, and of what it does with the characters of the queue.
-/
namespace Ion.TextReader.Calm
open Ion Ion.Queue Ion.TextReader

/-- The end of the data comes last. -/
def EofLast : List Nat → Prop
  | [] => True
  | c :: l => (c = EOF → l = []) ∧ EofLast l

theorem eofLast_none {l : List Nat} (h : EOF ∉ l) : EofLast l := by
  induction l with
  | nil => trivial
  | cons c l ih =>
    rw [List.mem_cons, not_or] at h
    exact ⟨fun hc => absurd hc.symm h.1, ih h.2⟩

/-- The outermost generator has no container. -/
def Ends (ty : Option IonType) : List Frame → Prop
  | [] => ty = none
  | f :: fs => Ends f.ty fs

/-- A child between tokens. -/
def AtRest (s : St) : Prop := ∀ x, s.child = some x → Rest s.outer.length x ∧ x.ionType = none

/-- The end of the data has been read: nothing is left. -/
def Over (c : Option Nat) (l : List Nat) : Prop := c = some EOF → l = []

/-- The invariant of the state, with the characters that are left. -/
def StSafe (s : St) (l : List Nat) : Prop :=
  Ends s.ty s.outer ∧
  match s.pc with
  | .head c => AtRest s ∧ Over c l
  | .token h q => HSafe s.outer.length (s.child.getD {}) h ∧ (q = true → (∀ f cl n b first, h ≠ .long f cl n b first)) ∧
      (∀ e, h = .longSymbol e → ∃ u l', l = u :: l' ∧ u ≠ 39)
  | .afterEvent c _ none => AtRest s ∧ Over c l
  | .afterEvent _ _ (some h) => HSafe s.outer.length (s.child.getD {}) h ∧ ∀ e, h ≠ .longSymbol e
  | .enter _ c => Over c l
  | .resumed => s.child = none
  | .hexLoop => True

/-- What an action does is safe, when `n` characters at least have been read and these are left. -/
def Safe : Act → Nat → List Nat → Prop
  | .err e, _, _ => Raised e
  | .emit _ s, _, l => StSafe s l
  | .read _ _ k, n, l => ∀ c l', EofLast (c :: l') → (l = [] ∨ l = c :: l') → Safe (k c) (n + 1) l'
  | .unread c a, n, l => ∃ m, n = m + 1 ∧ c ≠ EOF ∧ Safe a m (c :: l)
  | .wait a, n, l => l = [] ∧ ∀ l', EofLast l' → l' ≠ [] → Safe a n l'
  | .go s, _, l => StSafe s l

variable {F : FloatText} {s : St} {l : List Nat} {n : Nat}

theorem over_head {c : Nat} {l' : List Nat} (h : EofLast (c :: l')) : Over (some c) l' := fun hc => h.1 (Option.some.inj hc)

theorem over_ne {c : Nat} (h : c ≠ EOF) : Over (some c) l := fun hc => absurd (Option.some.inj hc) h

theorem over_none : Over none l := by rintro ⟨⟩

/-- A read, then the top of the loop. -/
theorem safe_readHead {b1 b2 : Bool} {g : Nat → St} (hg : ∀ c, Ends (g c).ty (g c).outer ∧ AtRest (g c) ∧ (g c).pc = .head (some c)) : Safe (.read b1 b2 fun c => .go (g c)) n l := by
  intro c l' hv _
  obtain ⟨h1, h2, h3⟩ := hg c
  refine ⟨h1, ?_⟩
  rw [h3]
  exact ⟨h2, over_head hv⟩

theorem rest_setType {d : Nat} {x : Ctx} {t : Option IonType} (h : Rest d x) : Rest d (x.setType t) := by
  simpa [Rest] using h

theorem safe_onSelf {x : Ctx} {c : Nat} (he : Ends s.ty s.outer) (hx : Rest s.outer.length x) (hc : Over (some c) l) : Safe (onSelf s x c) n l := by
  have hx' : Rest s.outer.length (x.setType none) := rest_setType hx
  have ok : ∀ y, some (x.setType none) = some y → Rest s.outer.length y ∧ y.ionType = none := by
    rintro y ⟨⟩
    exact ⟨hx', by simp⟩
  unfold onSelf
  dsimp only
  repeat' split
  all_goals first
    | exact ⟨he, ok, hc⟩
    | exact safe_readHead fun c => ⟨he, ok, rfl⟩

theorem safe_onRes {x : Ctx} {c : Option Nat} {r : Res} (he : Ends s.ty s.outer) (hr : ResSafe s.outer.length x r) (hc : Over c l)
    (hl : ∀ e, r = .imm (.longSymbol e) → ∃ u l', l = u :: l' ∧ u ≠ 39) : Safe (onRes s x c r) n l := by
  unfold onRes
  split
  · rename_i h
    exact ⟨he, hr, by rintro ⟨⟩, fun e hh => hl e (by rw [hh])⟩
  · refine safe_onSelf he hr ?_
    cases c with
    | none => exact over_ne (by decide)
    | some c => exact hc
  · split
    · exact .inr (.inr (.inr (.inr rfl)))
    · dsimp only
      split
      · exact ⟨he, hc⟩
      · exact ⟨he, by rintro x ⟨⟩, hc⟩
  · rename_i next nx
    cases next with
    | none =>
      refine ⟨he, ?_, hc⟩
      rintro y ⟨⟩
      exact hr
    | some h => exact ⟨he, hr⟩

theorem safe_onChar {x : Ctx} {h : H} {c : Ch} (he : Ends s.ty s.outer) (hs : HSafe s.outer.length x h) (hl : ∀ e, h = .longSymbol e → ¬ (c.code = 39 ∧ ¬ c.esc))
    (hn : ∀ f cl n first, h = .long f cl n false first → c.esc = false) (hc : Over (some c.code) l) : Safe (onChar F s x h (some c)) (n + 1) l := by
  unfold onChar
  have := handle_safe (v := s.env) F hs hl hn
  simp only [Option.getD_some, Option.map_some]
  split
  · rename_i ho; rw [ho] at this; exact this
  · rename_i o ho
    rw [ho] at this
    obtain ⟨h1, h2, h3⟩ := this
    cases hu : o.unread with
    | none => exact safe_onRes he h1 hc fun e hr => absurd hu (h3 e hr).1
    | some u =>
      obtain ⟨rfl, h5⟩ := h2 u hu
      exact ⟨n, rfl, h5, safe_onRes he h1 (over_ne h5) fun e hr => ⟨_, _, rfl, (h3 e hr).2⟩⟩

theorem safe_readHex {k : Nat → Act} : ∀ {m acc n : Nat} {l : List Nat}, (∀ acc n' l', n ≤ n' → Safe (k acc) n' l') → Safe (readHex m acc k) n l := by
  intro m
  induction m with
  | zero => intro acc n l h; exact h _ _ _ (Nat.le_refl _)
  | succ m ih =>
    intro acc n l h c l' _ _
    show Safe (if isHex c then _ else _) (n + 1) l'
    split
    · exact ih fun acc n' l'' hn => h acc n' l'' (by omega)
    · exact raised_ion

theorem safe_newline {c : Nat} {b : Bool} {k : Ch → Act} (hc : Over (some c) l)
    (h : ∀ c' n' l', n ≤ n' → (c'.code = c ∨ c'.code = 10) → c'.esc = b → Over (some c'.code) l' → Safe (k c') n' l') : Safe (newline c b k) n l := by
  unfold newline
  split
  · intro c' l' hv _
    dsimp only
    split
    · exact h _ _ _ (by omega) (.inr rfl) rfl (over_ne (c := 10) (by decide))
    · split
      · exact raised_type
      · rename_i hne
        exact ⟨n, rfl, hne, h _ _ _ (Nat.le_refl _) (.inr rfl) rfl (over_ne (c := 10) (by decide))⟩
  · exact h _ _ _ (Nat.le_refl _) (.inl rfl) rfl hc

theorem combine_range {c low : Nat} (hc : isHighSurrogate c) (hl : isLowSurrogate low) : combine c low ≠ EOF ∧ combine c low ≠ 39 := by
  unfold isHighSurrogate at hc
  unfold isLowSurrogate at hl
  unfold combine EOF
  omega

theorem safe_decoded {cp : Nat} {b : Bool} {k : Ch → Act} (he : Ends s.ty s.outer)
    (h : ∀ c' n' l', n ≤ n' → c'.esc = true → c'.code ≠ EOF → Safe (k c') n' l') : Safe (decoded cp b s k) n l := by
  unfold decoded
  split
  · exact .inr (.inr (.inr (.inl rfl)))
  · split
    · exact raised_value
    · split
      · rename_i hh
        intro c l' _ _
        dsimp only
        split
        · intro c' l'' _ _
          dsimp only
          split
          · split
            · exact ⟨he, trivial⟩
            · refine safe_readHex fun acc n' l3 hn => ?_
              split
              · rename_i hl
                exact h _ _ _ (by omega) rfl (combine_range hh hl).1
              · exact raised_value
          · exact raised_ion
        · split
          · exact raised_value
          · exact raised_ion
      · rename_i hle _ _
        exact h _ _ _ (Nat.le_refl _) rfl (by simp only [EOF]; omega)

theorem ite_ne {α : Type} {p : Prop} [Decidable p] {a b y : α} (ha : a ≠ y) (hb : b ≠ y) : (if p then a else b) ≠ y := by split <;> assumption

theorem commonEscape_ne {c cp : Nat} (h : commonEscape c = some cp) : cp ≠ EOF := by
  rintro rfl
  refine absurd h ?_
  unfold commonEscape
  iterate 13 refine ite_ne (by decide) ?_
  rintro ⟨⟩

theorem safe_codePoint {b : Bool} {k : Ch → Act} (he : Ends s.ty s.outer)
    (h : ∀ c' n' l', (c'.esc = true ∨ c'.code ≠ 39 ∨ ∀ u l', l = u :: l' → u = 39) → Over (some c'.code) l' → Safe (k c') (n' + 1) l') : Safe (codePoint b s k) n l := by
  unfold codePoint
  intro c l' hv hl
  dsimp only
  have hpos : ∀ n' : Nat, n + 1 ≤ n' → ∃ m, n' = m + 1 := fun n' hn => ⟨n' - 1, by omega⟩
  split
  · exact raised_value
  · split
    · rename_i hh
      intro c' l'' _ _
      dsimp only
      split
      · rename_i hlow
        have := combine_range hh hlow
        exact h _ _ _ (.inr (.inl this.2)) (over_ne this.1)
      · exact raised_value
    · split
      · intro c' l'' _ _
        dsimp only
        have hd : ∀ (cp n' : Nat) (b : Bool) (l3 : List Nat), n + 1 + 1 ≤ n' → Safe (decoded cp b s k) n' l3 := by
          intro cp n' b l3 hn
          refine safe_decoded he fun c' n'' l4 hn' hesc hne => ?_
          obtain ⟨m, rfl⟩ := hpos n'' (by omega)
          exact h _ _ _ (.inl hesc) (over_ne hne)
        split
        · exact safe_readHex fun acc n' l3 hn => hd _ _ _ _ hn
        · split
          · exact safe_readHex fun acc n' l3 hn => hd _ _ _ _ hn
          · split
            · exact safe_readHex fun acc n' l3 hn => hd _ _ _ _ hn
            · split
              · rename_i hcp
                exact h _ _ _ (.inl rfl) (over_ne (commonEscape_ne hcp))
              · split
                · rename_i hnl
                  refine safe_newline (over_ne ?_) fun c' n'' l4 hn' _ hesc ho => ?_
                  · rintro rfl; exact absurd hnl (by decide)
                  · obtain ⟨m, rfl⟩ := hpos n'' (by omega)
                    exact h _ _ _ (.inl hesc) ho
                · exact raised_ion
      · refine safe_newline (over_head hv) fun c' n'' l4 hn' hcode _ ho => ?_
        obtain ⟨m, rfl⟩ := hpos n'' (by omega)
        refine h _ _ _ ?_ ho
        by_cases h39 : c'.code = 39
        · rcases hcode with h1 | h1
          · refine .inr (.inr fun u l5 hl' => ?_)
            rcases hl with rfl | rfl
            · cases hl'
            · cases hl'; rw [← h1, h39]
          · rw [h1] at h39; cases h39
        · exact .inr (.inl h39)

theorem safe_onToken {h : H} {q : Bool} (hs : StSafe { s with pc := .token h q } l) : Safe (onToken F s h q) n l := by
  obtain ⟨he, h1, h2, h3⟩ := hs
  dsimp only at he h1
  have start : ∀ ty, Safe (onChar F s (s.child.getD {}) (.containerStart ty) none) n l := by
    intro ty
    simp only [onChar, handle, onRes]
    split
    · exact .inr (.inr (.inr (.inr rfl)))
    · split
      · exact ⟨he, over_none⟩
      · exact ⟨he, by rintro x ⟨⟩, over_none⟩
  unfold onToken
  dsimp only
  split
  · exact start _
  · exact start _
  · split
    · rename_i hq
      refine safe_codePoint he fun c n' l' hc ho => safe_onChar he h1 (fun e hh => ?_) (fun f cl m first hh => ?_) ho
      · obtain ⟨u, l2, rfl, hu⟩ := h3 e hh
        rintro ⟨hc1, hc2⟩
        rcases hc with hc | hc | hc
        · exact hc2 hc
        · exact hc hc1
        · exact hu (hc u l2 rfl)
      · subst hh
        have hquoted : (s.child.getD {}).quoted = false := by
          cases f with
          | true => exact h1.2.2.2 rfl
          | false => exact h1 rfl
        rw [hquoted, Bool.false_or] at hq
        exact absurd rfl (h2 hq f cl m false first)
    · intro c l' hv hl
      refine safe_onChar he h1 (fun e hh => ?_) (fun f cl m first hh => rfl) (over_head hv)
      obtain ⟨u, l2, rfl, hu⟩ := h3 e hh
      rcases hl with hl | hl
      · cases hl
      · cases hl
        rintro ⟨hc, _⟩
        exact hu hc

theorem safe_onClose {c : Nat} (he : Ends s.ty s.outer) (ha : AtRest s) (hc : isEnd s.ty c = true ∨ c = 44 ∨ c = EOF) (ho : Over (some c) l) : Safe (onClose s c) n l := by
  unfold onClose
  split
  · rename_i hi
    split
    · exact raised_ion
    · cases hout : s.outer with
      | nil =>
        rw [hout] at he
        rw [show s.ty = none from he] at hi
        cases hi
      | cons f fs =>
        rw [hout] at he
        exact ⟨he, rfl⟩
  · rename_i hi
    split
    · split
      · exact raised_ion
      · exact safe_readHead fun c => ⟨he, ha, rfl⟩
    · rename_i h44
      have : c = EOF := by
        rcases hc with h | h | h
        · exact absurd h hi
        · exact absurd h h44
        · exact h
      subst this
      exact ⟨ho rfl, fun l' _ _ => safe_readHead fun c => ⟨he, ha, rfl⟩⟩

theorem symbolEvent_raised {d : Nat} {x : Ctx} {t : Tok} {e : PyErr} (hx : Rest d x) (ht : x.pending = some t) (h : x.symbolEvent d t = .error e) : Raised e := by
  cases t with
  | ivm k =>
    simp only [Ctx.symbolEvent, if_pos (hx.2.2.2 k ht)] at h
    split at h
    · cases h
    · cases h; exact raised_ion
  | _ => cases h

/-- The handlers that a value or a field name starts with. -/
theorem mkUnquoted_long {v : Env} {c : Nat} {x y : Ctx} {f : Bool} {h : H} (hr : mkUnquoted v c x f = .ok (y, h)) : ∀ f cl n b first, h ≠ .long f cl n b first := by
  unfold mkUnquoted at hr
  repeat' split at hr
  all_goals cases hr
  all_goals rintro f cl n b first ⟨⟩

theorem mkKeyword_long {v : Env} {c : Nat} {x y : Ctx} {f : Bool} {h : H} (hr : mkKeyword v c x f = .ok (y, h)) : ∀ f cl n b first, h ≠ .long f cl n b first := by
  unfold mkKeyword at hr
  repeat' split at hr
  all_goals cases hr
  all_goals rintro f cl n b first ⟨⟩

theorem mkShort_long {x y : Ctx} {f : Bool} {h : H} (hr : mkShort x f = .ok (y, h)) : ∀ f cl n b first, h ≠ .long f cl n b first := by
  unfold mkShort at hr
  dsimp only at hr
  repeat' split at hr
  all_goals cases hr
  all_goals rintro f cl n b first ⟨⟩

theorem mkDollar_long {v : Env} {c : Nat} {x y : Ctx} {f : Bool} {h : H} (hr : mkDollar v c x f = .ok (y, h)) : ∀ f cl n b first, h ≠ .long f cl n b first := by
  unfold mkDollar at hr
  repeat' split at hr
  all_goals cases hr
  all_goals rintro f cl n b first ⟨⟩

theorem mkZero_long {c : Nat} {x y : Ctx} {h : H} (hr : mkZeroStart c x = .ok (y, h)) : ∀ f cl n b first, h ≠ .long f cl n b first := by
  unfold mkZeroStart at hr
  repeat' split at hr
  all_goals cases hr
  all_goals rintro f cl n b first ⟨⟩

theorem fieldTable_long {v : Env} {c : Nat} {x y : Ctx} {h : H} (hr : fieldTable v c x = .ok (y, h)) : ∀ f cl n b first, h ≠ .long f cl n b first := by
  unfold fieldTable at hr
  repeat' split at hr
  all_goals first | exact mkShort_long hr | exact mkDollar_long hr | exact mkKeyword_long hr | (cases hr; done) | (cases hr; rintro f cl n b first ⟨⟩)

theorem valueTable_long {v : Env} {c : Nat} {x y : Ctx} {h : H} (hr : valueTable v c x = .ok (y, h)) : ∀ f cl n b first, h ≠ .long f cl n b first := by
  unfold valueTable at hr
  repeat' split at hr
  all_goals first | exact mkShort_long hr | exact mkDollar_long hr | exact mkKeyword_long hr | exact mkZero_long hr | (cases hr; done) | (cases hr; rintro f cl n b first ⟨⟩)

theorem rest_empty {d : Nat} : Rest d {} := ⟨rfl, rfl, fun _ => rfl, by rintro k ⟨⟩⟩

theorem safe_onStart {c : Nat} (he : Ends s.ty s.outer) (ha : AtRest s) (hc : c ≠ EOF) : Safe (onStart s c) n l := by
  have hx : Rest s.outer.length (s.child.getD {}) := by
    cases hch : s.child with
    | none => exact rest_empty
    | some x => exact (ha x hch).1
  unfold onStart
  dsimp only
  split
  · split
    · cases hp : (s.child.getD {}).pending with
      | none => exact ⟨he, hx, by rintro ⟨⟩, by rintro e ⟨⟩⟩
      | some t =>
        dsimp only
        rw [if_neg (by simp [hx.1])]
        split
        · rename_i h; exact symbolEvent_raised hx hp h
        · exact ⟨he, hx, by rintro ⟨⟩, by rintro e ⟨⟩⟩
    · exact ⟨he, hx, by rintro ⟨⟩, by rintro e ⟨⟩⟩
  · split
    · exact raised_ion
    · have table : (s.pending = none) → Safe (match (if s.isField = true then fieldTable s.env c (if decorated s.child = true then s.child.getD {} else {}) else
            valueTable s.env c (if decorated s.child = true then s.child.getD {} else {})) with
          | .error err => .err err
          | .ok (x, h) => .go { s with canFlush := !s.isField, child := some x, pc := .token h (decide (c = 34) || decide (c = 39)) }) n l := by
        intro hpend
        have hb : Blank (if decorated s.child = true then s.child.getD {} else {}) := by
          split
          · cases hch : s.child with
            | none => exact ⟨rfl, rfl, rfl, rfl, rfl⟩
            | some x =>
              obtain ⟨⟨r1, r2, r3, r4⟩, r5⟩ := ha x hch
              have hp : x.pending = none := by simpa [St.pending, hch] using hpend
              exact ⟨r1, r2, r3 hp, r5, hp⟩
          · exact ⟨rfl, rfl, rfl, rfl, rfl⟩
        cases hf : s.isField with
        | true =>
          simp only [if_true]
          have := sets_field (v := s.env) (c := c) hb
          split
          · rename_i e he'; rw [he'] at this; exact this
          · rename_i y h' he'
            rw [he'] at this
            exact ⟨he, this.1, fun _ => fieldTable_long he', fun e hh => absurd hh (this.2 e)⟩
        | false =>
          simp only [Bool.false_eq_true, if_false]
          have := sets_value (v := s.env) (c := c) hb
          split
          · rename_i e he'; rw [he'] at this; exact this
          · rename_i y h' he'
            rw [he'] at this
            exact ⟨he, this.1, fun _ => valueTable_long he', fun e hh => absurd hh (this.2 e)⟩
      cases hch : s.child with
      | none =>
        have := table (by simp [St.pending, hch])
        simp only [hch] at this
        exact this
      | some x =>
        obtain ⟨hr, ht⟩ := ha x hch
        cases hp : x.pending with
        | none =>
          have := table (by simp [St.pending, hch, hp])
          simp only [hch] at this
          simp only [St.pending, hch, Option.bind_some, hp]
          exact this
        | some t =>
          simp only [St.pending, hch, Option.bind_some, hp]
          split
          · split
            · simp only [Ctx.setFieldName, hp, hr.1, ne_eq, not_true_eq_false, if_false]
              refine ⟨he, ?_, over_none⟩
              rintro y ⟨⟩
              exact ⟨⟨rfl, hr.2.1, fun _ => rfl, by rintro k ⟨⟩⟩, ht⟩
            · intro c' l' _ _
              dsimp only
              split
              · simp only [Ctx.setAnnotation, hp, hr.1, ne_eq, not_true_eq_false, if_false]
                refine ⟨he, ?_, over_none⟩
                rintro y ⟨⟩
                exact ⟨⟨rfl, hr.2.1, fun _ => rfl, by rintro k ⟨⟩⟩, rfl⟩
              · exact raised_ion
          · split
            · exact raised_ion
            · split
              · rename_i h; exact symbolEvent_raised hr hp h
              · exact ⟨he, by rintro x ⟨⟩, over_ne hc⟩

theorem safe_onHead {c : Option Nat} (he : Ends s.ty s.outer) (ha : AtRest s) (ho : Over c l) : Safe (onHead s c) n l := by
  unfold onHead
  cases c with
  | none => exact safe_readHead fun c => ⟨he, ha, rfl⟩
  | some c =>
    dsimp only
    split
    · rename_i hcond
      have hcl : isEnd s.ty c = true ∨ c = 44 ∨ c = EOF := by
        simp only [Bool.or_eq_true, Bool.and_eq_true, decide_eq_true_eq] at hcond
        rcases hcond with (h | h) | h
        · exact .inl h
        · exact .inr (.inl h.2)
        · exact .inr (.inr h)
      cases hch : s.child with
      | none => exact safe_onClose he ha hcl ho
      | some x =>
        obtain ⟨hr, ht⟩ := ha x hch
        cases hp : x.pending with
        | none =>
          simp only [St.pending, hch, Option.bind_some, hp]
          exact safe_onClose he ha hcl ho
        | some t =>
          simp only [St.pending, hch, Option.bind_some, hp]
          rw [if_neg (by simp [hr.1])]
          split
          · exact raised_ion
          · split
            · rename_i h; exact symbolEvent_raised hr hp h
            · exact ⟨he, by rintro x ⟨⟩, ho⟩
    · rename_i hcond
      split
      · exact safe_readHead fun c => ⟨he, ha, rfl⟩
      · refine safe_onStart he ha ?_
        rintro rfl
        simp at hcond

/-- From a safe state on, everything is safe. -/
theorem safe_next (h : StSafe s l) : Safe (next F s) n l := by
  unfold next
  cases hp : s.pc with
  | head c =>
    obtain ⟨h1, h2⟩ := h
    rw [hp] at h2
    exact safe_onHead h1 h2.1 h2.2
  | token h' q =>
    have hs : s = { s with pc := .token h' q } := by cases s; simp_all
    exact safe_onToken (by rw [← hs]; exact h)
  | afterEvent c sd nxt =>
    obtain ⟨h1, h2⟩ := h
    rw [hp] at h2
    dsimp only
    cases nxt with
    | none =>
      obtain ⟨h2, h3⟩ := h2
      split
      · exact safe_readHead fun c => ⟨h1, h2, rfl⟩
      · exact ⟨h1, h2, h3⟩
    | some h' =>
      have tok : ∀ (s' : St) l, s'.ty = s.ty → s'.outer = s.outer → s'.child = s.child → s'.pc = .token h' false → StSafe s' l := by
        intro s' l e1 e2 e3 e4
        refine ⟨by rw [e1, e2]; exact h1, ?_⟩
        rw [e4, e2, e3]
        exact ⟨h2.1, by rintro ⟨⟩, fun e hh => absurd hh (h2.2 e)⟩
      split
      · intro c l' _ _
        exact tok _ _ rfl rfl rfl rfl
      · exact tok _ _ rfl rfl rfl rfl
  | enter ty c =>
    obtain ⟨h1, h2⟩ := h
    rw [hp] at h2
    exact ⟨h1, by rintro x ⟨⟩, h2⟩
  | resumed =>
    obtain ⟨h1, h2⟩ := h
    rw [hp] at h2
    have h2 : s.child = none := h2
    have rest : ∀ x, s.child = some x → Rest s.outer.length x ∧ x.ionType = none := fun x hx => by rw [h2] at hx; cases hx
    exact safe_readHead fun c => ⟨h1, rest, rfl⟩
  | hexLoop =>
    obtain ⟨h1, _⟩ := h
    intro c l' _ _
    dsimp only
    split
    · exact ⟨h1, by rw [hp]; trivial⟩
    · exact raised_ion

/-! ## The trampolines -/

/-- What happens next is safe. -/
def OutcomeSafe : Outcome → Prop
  | .event _ s q => ∃ l n, EofLast l ∧ Has q l n ∧ StSafe s l
  | .block b1 b2 k q => ∃ n, Has q [] n ∧ Safe (.read b1 b2 k) n []
  | .waiting a q => ∃ n, Has q [] n ∧ ∀ l, EofLast l → l ≠ [] → Safe a n l
  | .error e => Raised e

theorem advance_safe {a : Act} {q : BufferQueue Nat} {o : Outcome} (ha : Safe a n l) (hv : EofLast l) (hq : Has q l n) (h : advance F a q = some o) : OutcomeSafe o := by
  refine advance.partial_correctness F (fun a q o => ∀ n l, Safe a n l → EofLast l → Has q l n → OutcomeSafe o) ?_ a q o h n l ha hv hq
  intro adv ih a q o h n l ha hv hq
  cases a with
  | err e => cases h; exact ha
  | emit e s => cases h; exact ⟨l, n, hv, hq, ha⟩
  | read complete canFlush k =>
    dsimp only at h
    have hsize := hq.size
    cases l with
    | nil =>
      rw [if_pos (by simpa using hsize)] at h
      cases h
      exact ⟨n, hq, ha⟩
    | cons c l =>
      rw [if_neg (by rw [hsize, List.length_cons]; omega)] at h
      obtain ⟨q', h1, h2⟩ := hq.read
      rw [h1] at h
      exact ih _ _ _ h _ _ (ha c l hv (.inr rfl)) hv.2 h2
  | unread c a =>
    obtain ⟨m, rfl, hc, ha⟩ := ha
    dsimp only at h
    rcases hq.unread c with ⟨q', h1⟩ | ⟨q', h1, h2⟩
    · rw [h1] at h; cases h; exact raised_value
    · rw [h1] at h
      exact ih _ _ _ h _ _ ha ⟨fun hh => absurd hh hc, hv⟩ h2
  | wait a =>
    obtain ⟨rfl, ha⟩ := ha
    dsimp only at h
    rw [if_pos (by simpa using hq.size)] at h
    cases h
    exact ⟨n, hq, ha⟩
  | go s => exact ih _ _ _ h _ _ (safe_next ha) hv hq

/-- The state between two `send`s is safe; `noSkip`: no `SKIP` has been sent. -/
def StatusSafe : Status → Prop
  | .fresh => True
  | .paused _ s q _ => ∃ l n, EofLast l ∧ Has q l n ∧ StSafe s l
  | .blocked b1 b2 k q _ _ => ∃ n, Has q [] n ∧ Safe (.read b1 b2 k) n []
  | .waiting a q _ _ => ∃ n, Has q [] n ∧ ∀ l, EofLast l → l ≠ [] → Safe a n l
  | .dead => True

/-- The reader is skipping. -/
def Skipping : Status → Bool
  | .blocked _ _ _ _ _ b | .waiting _ _ _ b => b
  | _ => false

/-- An answer is safe. -/
def AnswerSafe (r : Except PyErr IonEvent × Status) : Prop := (∀ e, r.1 = .error e → Raised e) ∧ StatusSafe r.2 ∧ ∀ e, r.1 = .ok e → r.2 ≠ .dead

theorem deliver_safe {depth : Int} {skipping : Bool} {a : Act} {q : BufferQueue Nat} {r : Except PyErr IonEvent × Status} (ha : Safe a n l) (hv : EofLast l) (hq : Has q l n)
    (h : deliver F depth skipping a q = some r) : AnswerSafe r ∧ (skipping = false → Skipping r.2 = false) := by
  refine deliver.partial_correctness F depth (fun skipping a q r => ∀ n l, Safe a n l → EofLast l → Has q l n → AnswerSafe r ∧ (skipping = false → Skipping r.2 = false)) ?_ skipping a q r h n l ha hv hq
  intro del ih skipping a q r h n l ha hv hq
  cases ho : advance F a q with
  | none => rw [ho] at h; cases h
  | some o =>
    rw [ho] at h
    have h1 := advance_safe ha hv hq ho
    simp only [Option.bind_eq_bind, Option.bind_some] at h
    cases o with
    | error e => cases h; exact ⟨⟨by rintro _ ⟨⟩; exact h1, trivial, by rintro e ⟨⟩⟩, fun _ => rfl⟩
    | block complete canFlush k q =>
      dsimp only at h
      split at h
      · cases h
      · cases h; exact ⟨⟨by rintro _ ⟨⟩, h1, by rintro e _ ⟨⟩⟩, fun h => h⟩
    | waiting a q =>
      dsimp only at h
      split at h
      · cases h
      · cases h; exact ⟨⟨by rintro _ ⟨⟩, h1, by rintro e _ ⟨⟩⟩, fun h => h⟩
    | event e s q =>
      dsimp only at h
      obtain ⟨l', n', h2, h3, h4⟩ := h1
      split at h
      · split at h
        · cases h; exact ⟨⟨by rintro _ ⟨⟩, ⟨l', n', h2, h3, h4⟩, by rintro e _ ⟨⟩⟩, fun _ => rfl⟩
        · obtain ⟨h5, _⟩ := ih _ _ _ _ h n' l' h4 h2 h3
          refine ⟨h5, fun hs => ?_⟩
          simp_all
      · split at h
        · cases h; exact ⟨⟨by rintro _ ⟨⟩, ⟨l', n', h2, h3, h4⟩, by rintro e _ ⟨⟩⟩, fun _ => rfl⟩
        · cases h; exact ⟨⟨by rintro _ ⟨⟩, ⟨l', n', h2, h3, h4⟩, by rintro e _ ⟨⟩⟩, fun _ => rfl⟩

/-- Without `SKIP` the reader answers. -/
theorem deliver_total {depth : Int} {a : Act} {q : BufferQueue Nat} (hq : Has q l n) : ∃ r, deliver F depth false a q = some r := by
  obtain ⟨o, ho⟩ := advance_total F a hq
  rw [deliver, ho]
  cases o with
  | error e => exact ⟨_, rfl⟩
  | block b1 b2 k q => exact ⟨_, rfl⟩
  | waiting a q => exact ⟨_, rfl⟩
  | event e s q =>
    simp only [Option.bind_eq_bind, Option.bind_some, Bool.false_eq_true, if_false]
    split <;> exact ⟨_, rfl⟩

/-- What `orDiverge` gives. -/
theorem orDiverge_safe {depth : Int} {skipping : Bool} {a : Act} {q : BufferQueue Nat} (ha : Safe a n l) (hv : EofLast l) (hq : Has q l n) :
    let r := orDiverge (deliver F depth skipping a q)
    (AnswerSafe r ∧ (skipping = false → Skipping r.2 = false)) ∨ (skipping = true ∧ r = (.error .modelFuel, .dead)) := by
  dsimp only
  cases h : deliver F depth skipping a q with
  | some r => exact .inl (deliver_safe ha hv hq h)
  | none =>
    cases skipping with
    | true => exact .inr ⟨rfl, rfl⟩
    | false =>
      obtain ⟨r, hr⟩ := deliver_total (F := F) (depth := depth) (a := a) hq
      rw [h] at hr
      cases hr

theorem raised_answer {e : PyErr} (h : Raised e ∨ e = .stopIteration) : ∀ e', (Except.error e : Except PyErr IonEvent) = .error e' → Raised e' ∨ e' = .stopIteration := by
  rintro _ ⟨⟩; exact h

/-- One `send`. -/
theorem send_safe {units : Bytes → List Nat} {st : Status} {cmd : RawReader.Cmd} (hs : StatusSafe st) (hu : ∀ d, cmd = .data d → EOF ∉ units d) :
    let r := send F units st cmd
    (StatusSafe r.2 ∧ ∀ e, r.1 = .ok e → r.2 ≠ .dead) ∧ ((∀ e, r.1 = .error e → Raised e ∨ (e = .stopIteration ∧ st = .dead) ∨ (e = .modelFuel ∧ (Skipping st = true ∨ cmd = .skip)))) ∧
      (Skipping st = false → cmd ≠ .skip → Skipping r.2 = false) := by
  have go : ∀ {depth : Int} {skipping : Bool} {a : Act} {q : BufferQueue Nat} {n : Nat} {l : List Nat}, Safe a n l → EofLast l → Has q l n → (skipping = true → Skipping st = true ∨ cmd = .skip) →
      let r := orDiverge (deliver F depth skipping a q)
      (StatusSafe r.2 ∧ ∀ e, r.1 = .ok e → r.2 ≠ .dead) ∧ ((∀ e, r.1 = .error e → Raised e ∨ (e = .stopIteration ∧ st = .dead) ∨ (e = .modelFuel ∧ (Skipping st = true ∨ cmd = .skip)))) ∧
        (Skipping st = false → cmd ≠ .skip → Skipping r.2 = false) := by
    intro depth skipping a q n l ha hv hq hsk
    dsimp only
    rcases orDiverge_safe (F := F) (depth := depth) (skipping := skipping) ha hv hq with ⟨⟨h1, h2⟩, h3⟩ | ⟨h1, h2⟩
    · refine ⟨h2, fun e he => .inl (h1 e he), fun h4 h5 => h3 ?_⟩
      cases skipping with
      | false => rfl
      | true =>
        rcases hsk rfl with h | h
        · rw [h] at h4; cases h4
        · exact absurd h h5
    · rw [h2]
      refine ⟨⟨trivial, by rintro e ⟨⟩⟩, ?_, fun _ _ => rfl⟩
      rintro _ ⟨⟩
      exact .inr (.inr ⟨rfl, hsk h1⟩)
  have dead : ∀ {e : PyErr}, Raised e → ((StatusSafe (Except.error (α := IonEvent) e, Status.dead).2 ∧ ∀ e', (Except.error (α := IonEvent) e, Status.dead).1 = .ok e' → (Except.error (α := IonEvent) e, Status.dead).2 ≠ .dead) ∧
      ((∀ e', (Except.error (α := IonEvent) e, Status.dead).1 = .error e' → Raised e' ∨ (e' = .stopIteration ∧ st = .dead) ∨ (e' = .modelFuel ∧ (Skipping st = true ∨ cmd = .skip)))) ∧
        (Skipping st = false → cmd ≠ .skip → Skipping (Except.error (α := IonEvent) e, Status.dead).2 = false)) := by
    intro e he
    exact ⟨⟨trivial, by rintro e ⟨⟩⟩, by rintro _ ⟨⟩; exact .inl he, fun _ _ => rfl⟩
  cases st with
  | dead => cases cmd <;> exact ⟨⟨trivial, by rintro e ⟨⟩⟩, by rintro _ ⟨⟩; exact .inr (.inl ⟨rfl, rfl⟩), fun _ _ => rfl⟩
  | fresh =>
    cases cmd with
    | next => exact go (l := []) (n := 0) (show Safe (.go {}) 0 [] from ⟨rfl, by rintro x ⟨⟩, over_none⟩) trivial has_empty (by rintro ⟨⟩)
    | _ => exact dead raised_type
  | paused e s q depth =>
    obtain ⟨l, n, h1, h2, h3⟩ := hs
    cases cmd with
    | next => exact go (show Safe (.go s) n l from h3) h1 h2 (by rintro ⟨⟩)
    | data d => exact dead raised_type
    | skip =>
      unfold send
      dsimp only
      split
      · exact dead raised_type
      · exact go (show Safe (.go s) n l from h3) h1 h2 (fun _ => .inr rfl)
  | blocked b1 b2 k q depth sk =>
    obtain ⟨n, h1, h2⟩ := hs
    have more : ∀ l' : List Nat, l' ≠ [] → Safe (.read b1 b2 k) n l' := by
      intro l' hl c l'' hv hh
      exact h2 c l'' hv (.inl rfl)
    cases cmd with
    | next =>
      simp only [send]
      split
      · exact dead raised_type
      · split
        · exact go (more [EOF] (by simp)) ⟨fun _ => rfl, trivial⟩ (h1.extend (by simp)) (fun h => .inl h)
        · exact dead raised_ion
    | skip => exact dead raised_type
    | data d =>
      simp only [send]
      split
      · exact dead raised_value
      · rename_i hd
        exact go (more _ hd) (eofLast_none (hu d rfl)) (h1.extend hd) (fun h => .inl h)
  | waiting a q depth sk =>
    obtain ⟨n, h1, h2⟩ := hs
    cases cmd with
    | data d =>
      simp only [send]
      split
      · exact dead raised_value
      · rename_i hd
        exact go (h2 _ (eofLast_none (hu d rfl)) hd) (eofLast_none (hu d rfl)) (h1.extend hd) (fun h => .inl h)
    | _ => exact dead raised_type

end Ion.TextReader.Calm

import Verif.TextSafeRun
import Verif.LoadErrors
set_option linter.unusedSimpArgs false
/-!
# The values of the events of the text reader

The values of text events are parsed when they are used.  Whatever the text is, this raises only exceptions that are `Known`; in
particular the assertions of the timestamp parser hold.
-/
namespace Ion.TextReader.Values
open Ion Ion.Errors Ion.TextReader

/-! ## The parsers -/

theorem parseInt_only (l : List Nat) : Only (parseInt l) := by
  unfold parseInt
  repeat' split
  all_goals first | exact only_ok | exact only_err trivial

theorem parseRadix_only (b : Nat) (l : List Nat) : Only (parseRadix b l) := by
  unfold parseRadix
  repeat' split
  all_goals first | exact only_ok | exact only_err trivial

theorem parseDecimalAbs_only (s : Bool) (l : List Nat) : Only (parseDecimalAbs s l) := by
  unfold parseDecimalAbs
  dsimp only
  repeat' split
  all_goals first | exact only_ok | exact only_err trivial

theorem parseDecimal_only (l : List Nat) : Only (TextReader.parseDecimal l) := by
  unfold TextReader.parseDecimal
  split <;> exact parseDecimalAbs_only _ _

theorem b64Loop_only (l : List Nat) : ∀ (q p r : Nat), Only (b64Loop l q p r) := by
  induction l with
  | nil =>
    intro q p r
    unfold b64Loop
    split
    · exact only_ok
    · exact only_err trivial
  | cons c l ih =>
    intro q p r
    unfold b64Loop
    repeat' split
    all_goals first | exact only_ok | exact ih _ _ _ | exact only_map (ih _ _ _)

theorem parseLob_only (ty : IonType) (x : Ctx) : Only (parseLob ty x) := by
  unfold parseLob
  repeat' split
  all_goals first | exact only_ok | exact only_err trivial | skip
  rename_i h
  exact only_err (b64Loop_only _ _ _ _ _ h)

theorem intOr_only (t : Option (List Nat)) (d : Nat) : Only (intOr t d) := by
  unfold intOr
  split
  · exact only_ok
  · split
    · rename_i h; exact only_err (parseInt_only _ _ h)
    · exact only_ok

theorem parseFraction_only (t : TsTokens) : Only (parseFraction t) := by
  unfold parseFraction
  split
  · split
    · rename_i h; exact only_err (parseInt_only _ _ h)
    · split
      · rename_i h; exact only_err (scaleb_only _ _ _ _ h)
      · exact only_ok
  · exact only_ok

/-- The assertions of the timestamp parser: hour and minute, and hour and minute of the offset, come together. -/
def Together (t : TsTokens) : Prop := t.hour.isSome = t.minute.isSome ∧ t.offHour.isSome = t.offMinute.isSome

theorem parseOffset_only {t : TsTokens} (h : Together t) : Only (parseOffset t) := by
  obtain ⟨-, h⟩ := h
  unfold parseOffset
  split
  · rename_i h1
    rw [h1] at h
    rw [if_neg (by rw [← h]; simp)]
    exact only_ok
  · rename_i h1
    split
    · rename_i h2
      rw [h1, h2] at h
      cases h
    · split
      · rename_i h3; exact only_err (parseInt_only _ _ h3)
      · rename_i h3 _; exact only_err (parseInt_only _ _ h3)
      · dsimp only
        unfold offsetTZInfo
        repeat' split
        all_goals first
          | exact only_ok
          | exact only_err trivial
          | (rename_i h4; split at h4 <;> cases h4; exact only_err trivial)

theorem parseTimestamp_only {year : List Nat} {t : TsTokens} (h : Together t) : Only (TextReader.parseTimestamp year t) := by
  unfold TextReader.parseTimestamp
  refine only_bind (parseOffset_only h) fun _ => only_bind (intOr_only _ _) fun _ => only_bind (intOr_only _ _) fun _ => only_bind (intOr_only _ _) fun _ => ?_
  rw [if_neg (by simp [h.1])]
  refine only_bind (intOr_only _ _) fun _ => only_bind (intOr_only _ _) fun _ => only_bind (intOr_only _ _) fun _ => only_bind (parseFraction_only _) fun _ => only_bind (Errors.new_only _) fun _ => only_ok

theorem someVal_only {α : Type} {f : α → PyVal} {x : Except PyErr α} (h : Only x) : Only (someVal f x) := by
  cases x with
  | error e => exact only_err (h e rfl)
  | ok a => exact only_ok

/-- Reading a float raises known exceptions only. -/
def FloatsOnly (F : FloatText) : Prop := ∀ l, Only (F.parse l)

theorem numParse_only {F : FloatText} (hF : FloatsOnly F) (k : NumKind) (l : List Nat) : Only (k.parse F l) := by
  cases k <;> simp only [NumKind.parse]
  · exact someVal_only (parseDecimal_only _)
  · exact someVal_only (hF _)
  · exact someVal_only (parseDecimal_only _)
  · exact someVal_only (parseInt_only _)
  · exact someVal_only (parseRadix_only _ _)
  · exact someVal_only (parseRadix_only _ _)

/-! ## Timestamps -/

/-- Which fields have been read in a state of `_timestamp_handler`. -/
def Fields (n : Nat) (t : TsTokens) : Prop :=
  (t.hour.isSome = true ↔ 3 ≤ n) ∧ (t.minute.isSome = true ↔ 4 ≤ n) ∧ (t.offHour.isSome = true ↔ 7 ≤ n) ∧ (t.offMinute.isSome = true ↔ 8 ≤ n)

/-- The states in which a character may be next. -/
def Nxt (n : Nat) (prev : Nat) : TsNext → Prop
  | .term => True
  | .yearDelim => n = 1 ∧ isDigit prev = true
  | .tTerm => n = 2 ∧ isDigit prev = true
  | .colon => (n = 3 ∨ n = 7) ∧ isDigit prev = true
  | .offColon => n = 4 ∧ isDigit prev = true
  | .offDot => n = 5 ∧ isDigit prev = true
  | .digitsOff => n = 6 ∧ isDigit prev = true
  | .digits => (isDigit prev = true ∧ 1 ≤ n) ∨ (prev = 45 ∧ (n ≤ 1 ∨ (4 ≤ n ∧ n ≤ 6))) ∨ (prev = 43 ∧ 4 ≤ n ∧ n ≤ 6) ∨ (prev = 58 ∧ (n = 3 ∨ n = 4 ∨ n = 7)) ∨ (prev = 46 ∧ n = 5)
  | .digitsTerm => (isDigit prev = true ∧ 1 ≤ n ∧ n ≤ 3) ∨ (prev = 84 ∧ n ≤ 2)

/-- The invariant of `_timestamp_handler`. -/
def TsOk (s : TsState) : Prop := (s.canTerminate = true → Together s.tokens) ∧ (s.nxt ≠ .term → s.state ≤ 8 ∧ Fields s.state s.tokens ∧ Nxt s.state s.prev s.nxt)

theorem upd_some {t : TsTokens} {n : Nat} {f : Option (List Nat) → Option (List Nat)} (hf : ∀ o, (f o).isSome = true) {m : Nat} (h : Fields m t) (hn : n = m ∨ n = m + 1 ∨ (n = 7 ∧ 4 ≤ m ∧ m ≤ 6)) (h1 : 1 ≤ n) (h8 : n ≤ 8) : Fields n (t.upd n f) := by
  obtain ⟨a1, a2, a3, a4⟩ := h
  unfold Fields
  have : n = 1 ∨ n = 2 ∨ n = 3 ∨ n = 4 ∨ n = 5 ∨ n = 6 ∨ n = 7 ∨ n = 8 := by omega
  rcases this with rfl | rfl | rfl | rfl | rfl | rfl | rfl | rfl <;> simp only [TsTokens.upd, hf, a1, a2, a3, a4] <;> simp <;> omega

theorem digit_range {c : Nat} (h : isDigit c = true) : 48 ≤ c ∧ c ≤ 57 := by simpa [isDigit] using h

theorem Fields.together {n : Nat} {t : TsTokens} (h : Fields n t) (hn : n ≤ 2 ∨ 8 ≤ n ∨ (4 ≤ n ∧ n ≤ 6)) : Together t := by
  obtain ⟨a1, a2, a3, a4⟩ := h
  constructor
  · rw [Bool.eq_iff_iff, a1, a2]; omega
  · rw [Bool.eq_iff_iff, a3, a4]; omega

theorem tsDigit_ok {s s' : TsState} {c : Nat} (h : s.nxt ≠ .term → s.state ≤ 8 ∧ Fields s.state s.tokens ∧ Nxt s.state s.prev s.nxt) (hs : s.canTerminate = false) (hc : isDigit c = true) (hn : s.nxt.has c = true) (ht : tsDigit s c = .ok s') : TsOk s' := by
  have hr := digit_range hc
  have hd : s.nxt = .digits ∨ s.nxt = .digitsTerm ∨ s.nxt = .digitsOff := by
    cases hx : s.nxt <;> rw [hx] at hn <;> simp [TsNext.has, isTerm] at hn <;> first | (simp; done) | (exfalso; omega)
  obtain ⟨h1, h2, h3⟩ := h (by rcases hd with h | h | h <;> rw [h] <;> simp)
  have two : ∀ {n m : Nat} {t : TsTokens} {f g : Option (List Nat) → Option (List Nat)}, (∀ o, (f o).isSome = true) → (∀ o, (g o).isSome = true) → Fields m t → (n = m ∨ n = m + 1 ∨ (n = 7 ∧ 4 ≤ m ∧ m ≤ 6)) → 1 ≤ n → n ≤ 8 →
      Fields n ((t.upd n f).upd n g) := fun hf hg ht hn h1 h8 => upd_some hg (upd_some hf ht hn h1 h8) (.inl rfl) h1 h8
  unfold tsDigit at ht
  dsimp only at ht
  split at ht
  · rename_i hp
    cases ht
    have hm : 4 ≤ s.state ∧ s.state ≤ 6 ∧ s.nxt = .digits := by
      rcases hd with h | h | h <;> rw [h] at h3 <;> simp only [Nxt] at h3
      · refine ⟨?_, ?_, h⟩
        · rcases h3 with ⟨h3, -⟩ | h3 | h3 | h3 | h3
          · have := digit_range h3; omega
          all_goals omega
        · rcases h3 with ⟨h3, -⟩ | h3 | h3 | h3 | h3
          · have := digit_range h3; omega
          all_goals omega
      · rcases h3 with ⟨h3, -⟩ | h3
        · have := digit_range h3; omega
        · omega
      · have := digit_range h3.2; omega
    refine ⟨by simp [hs], fun _ => ⟨by simp, two (by simp) (by simp) h2 (by omega) (by omega) (by omega), ?_⟩⟩
    simp only [hm.2.2, Nxt]
    exact .inl ⟨hc, by omega⟩
  · rename_i hp
    split at ht
    · rename_i hp2
      cases ht
      have hm : (s.state ≤ 5 ∨ s.state = 7) ∧ (s.nxt = .digits ∨ (s.nxt = .digitsTerm ∧ s.state ≤ 2)) := by
        rcases hd with h | h | h <;> rw [h] at h3 <;> simp only [Nxt] at h3
        · refine ⟨?_, .inl h⟩
          rcases h3 with ⟨h3, -⟩ | h3 | h3 | h3 | h3
          · have := digit_range h3; omega
          all_goals omega
        · rcases h3 with ⟨h3, -⟩ | h3
          · have := digit_range h3; omega
          · exact ⟨by omega, .inr ⟨h, h3.2⟩⟩
        · have := digit_range h3.2; omega
      refine ⟨by simp [hs], fun _ => ⟨by simp; omega, two (by simp) (by simp) h2 (by omega) (by omega) (by omega), ?_⟩⟩
      dsimp only
      split
      · exact ⟨by assumption, hc⟩
      · rcases hm.2 with h | ⟨h, h'⟩ <;> rw [h]
        · exact .inl ⟨hc, by omega⟩
        · exact .inl ⟨hc, by omega, by omega⟩
    · split at ht
      · have one : ∀ {f : Option (List Nat) → Option (List Nat)}, (∀ o, (f o).isSome = true) → 1 ≤ s.state → Fields s.state (s.tokens.upd s.state f) := fun hf h0 => upd_some hf h2 (.inl rfl) h0 h1
        split at ht <;> (try cases ht) <;> rename_i hst <;> rw [hst] at one <;> have one := @one (fun o => some (o.getD [] ++ [c])) (by simp) (by omega)
        · exact ⟨by simp [hs], fun _ => ⟨by simp [hst], by rw [hst]; exact one, by simp [hst, Nxt, hc]⟩⟩
        · exact ⟨fun _ => by rw [hst]; exact one.together (by omega), fun _ => ⟨by simp [hst], by rw [hst]; exact one, by simp [hst, Nxt, hc]⟩⟩
        · exact ⟨by simp [hs], fun _ => ⟨by simp [hst], by rw [hst]; exact one, by simp [hst, Nxt, hc]⟩⟩
        · exact ⟨by simp [hs], fun _ => ⟨by simp [hst], by rw [hst]; exact one, by simp [hst, Nxt, hc]⟩⟩
        · exact ⟨by simp [hs], fun _ => ⟨by simp [hst], by rw [hst]; exact one, by simp [hst, Nxt, hc]⟩⟩
        · exact ⟨by simp [hs], fun _ => ⟨by simp [hst], by rw [hst]; exact one, by simp [hst, Nxt, hc]⟩⟩
        · exact ⟨by simp [hs], fun _ => ⟨by simp [hst], by rw [hst]; exact one, by simp [hst, Nxt, hc]⟩⟩
        · exact ⟨fun _ => by rw [hst]; exact one.together (by omega), fun h => absurd rfl h⟩
      · cases ht

/-! ## The handlers -/

/-- An event with its value. -/
def Ev (e : IonEvent) : Prop := Only e.value ∧ e.eventType.isStreamSignal = false

/-- The events and the timestamps of a suspended handler. -/
def HOk : H → Prop
  | .slashEnd e => Ev e
  | .longSymbol e => Ev e
  | .ts s => TsOk s
  | .comment (some h) => HOk h
  | .commentBody (some h) _ _ => HOk h
  | .sexpSlash none p => ∀ e, p = some e → Ev e
  | .sexpSlash (some h) p => HOk h ∧ ∀ e, p = some e → Ev e
  | _ => True

def HOk? : Option H → Prop
  | none => True
  | some h => HOk h

def ResOk : Res → Prop
  | .imm h => HOk h
  | .self => True
  | .event e => Ev e
  | .composite e n _ => Ev e ∧ HOk? n

def OutOk : Except PyErr Out → Prop
  | .error _ => True
  | .ok o => ResOk o.res

/-- A handler that has just been created. -/
def MkOk : Except PyErr (Ctx × H) → Prop
  | .error _ => True
  | .ok p => HOk p.2

theorem andGo_ok {r : Except PyErr (Ctx × H)} {u : Option Nat} (h : MkOk r) : OutOk (andGo r u) := by
  cases r with
  | error e => trivial
  | ok p => exact h

theorem mkOperator_ok {c : Nat} {x : Ctx} : MkOk (mkOperator c x) := by
  unfold mkOperator
  split <;> trivial

theorem mkUnquoted_ok {v : Env} {c : Nat} {x : Ctx} {f : Bool} : MkOk (mkUnquoted v c x f) := by
  unfold mkUnquoted
  repeat' split
  all_goals trivial

theorem mkNumeric_ok {k : NumKind} {c : Nat} {x : Ctx} : MkOk (mkNumeric k c x) := by
  unfold mkNumeric
  repeat' split
  all_goals trivial

theorem mkTimestamp_ok {c : Nat} {x : Ctx} (hc : c = 45 ∨ c = 84) : MkOk (mkTimestamp c x) := by
  unfold mkTimestamp
  dsimp only
  split
  · trivial
  · refine ⟨fun _ => ⟨rfl, rfl⟩, fun _ => ⟨by simp, ?_, ?_⟩⟩
    · simp [Fields]
    · dsimp only
      rcases hc with rfl | rfl <;> simp [Nxt]

theorem mkZeroStart_ok {c : Nat} {x : Ctx} : MkOk (mkZeroStart c x) := by
  unfold mkZeroStart
  split <;> trivial

theorem mkTsZero_ok {c : Nat} {x : Ctx} : MkOk (mkTsZero c x) := by
  unfold mkTsZero
  dsimp only
  repeat' split
  all_goals trivial

theorem wholeTable_ok {d : Bool} {c : Nat} {x : Ctx} : MkOk (wholeTable d c x) := by
  unfold wholeTable
  repeat' split
  all_goals first | exact mkNumeric_ok | trivial

theorem mkQuotedSymbol_ok {c : Ch} {x : Ctx} {f : Bool} : MkOk (mkQuotedSymbol c x f) := by
  unfold mkQuotedSymbol
  repeat' split
  all_goals trivial

theorem mkShort_ok {x : Ctx} {f : Bool} : MkOk (mkShort x f) := by
  unfold mkShort
  dsimp only
  repeat' split
  all_goals trivial

theorem mkLong_ok {x : Ctx} {f : Bool} : MkOk (mkLong x f) := by
  unfold mkLong
  dsimp only
  repeat' split
  all_goals trivial

theorem mkClobEnd_ok {c : Nat} {x : Ctx} : MkOk (mkClobEnd c x) := by
  unfold mkClobEnd
  repeat' split
  all_goals trivial

theorem mkBlobEnd_ok {c : Nat} {x : Ctx} : MkOk (mkBlobEnd c x) := by
  unfold mkBlobEnd
  repeat' split
  all_goals trivial

theorem mkKeyword_ok {v : Env} {c : Nat} {x : Ctx} {f : Bool} : MkOk (mkKeyword v c x f) := by
  unfold mkKeyword
  repeat' split
  all_goals trivial

theorem mkDollar_ok {v : Env} {c : Nat} {x : Ctx} {f : Bool} : MkOk (mkDollar v c x f) := by
  unfold mkDollar
  split <;> trivial

theorem fieldTable_ok {v : Env} {c : Nat} {x : Ctx} : MkOk (fieldTable v c x) := by
  unfold fieldTable
  repeat' split
  all_goals first | trivial | exact mkShort_ok | exact mkDollar_ok | exact mkKeyword_ok

theorem valueTable_ok {v : Env} {c : Nat} {x : Ctx} : MkOk (valueTable v c x) := by
  unfold valueTable
  repeat' split
  all_goals first | trivial | exact mkShort_ok | exact mkDollar_ok | exact mkKeyword_ok | exact mkZeroStart_ok

theorem endNumber_ok {x : Ctx} {c : Ch} {e : IonEvent} (h : Ev e) : OutOk (endNumber x c e) := by
  unfold endNumber
  split <;> exact h

theorem symbolEvent_ok {x : Ctx} {d : Nat} {t : Tok} {e : IonEvent} (h : x.symbolEvent d t = .ok e) : Ev e := by
  unfold Ctx.symbolEvent at h
  repeat' split at h
  all_goals cases h
  all_goals exact ⟨only_ok, rfl⟩

theorem symbolEnd_ok {v : Env} {c : Nat} {x : Ctx} {f : Bool} {t : Tok} : OutOk (symbolEnd v c x f t) := by
  unfold symbolEnd
  split
  · trivial
  · split
    · trivial
    · rename_i h; exact symbolEvent_ok h

theorem onNumeric_ok {F : FloatText} (hF : FloatsOnly F) {v : Env} {k : NumKind} {p : Nat} {x : Ctx} {c : Ch} : OutOk (onNumeric F v k p x c) := by
  unfold onNumeric
  split
  · split
    · trivial
    · exact endNumber_ok ⟨numParse_only hF _ _, rfl⟩
  · split
    · split <;> trivial
    · split
      · trivial
      · unfold NumKind.transition
        repeat' split
        all_goals first | trivial | exact andGo_ok wholeTable_ok

theorem onTs_ok {v : Env} {s : TsState} {x : Ctx} {c : Ch} (h : TsOk s) : OutOk (onTs v s x c) := by
  unfold onTs
  dsimp only
  split
  · trivial
  · rename_i hn
    split
    · split
      · trivial
      · rename_i hc
        exact endNumber_ok ⟨parseTimestamp_only (h.1 (by simpa using hc)), rfl⟩
    · rename_i ht
      have he : (s.canTerminate && decide (c.code = EOF)) = false := by
        cases h0 : (s.canTerminate && decide (c.code = EOF)) with
        | false => rfl
        | true => exact absurd (by rw [h0]; simp) ht
      have htm : isTerm c.code = false := by
        cases h0 : isTerm c.code with
        | false => rfl
        | true => exact absurd (by rw [h0]; rfl) ht
      have hx : s.nxt.has c.code = true := by
        cases h0 : s.nxt.has c.code with
        | true => rfl
        | false => exact absurd (by rw [h0, he]; rfl) hn
      have hnt : s.nxt ≠ .term := by
        intro h0
        rw [h0] at hx
        simp only [TsNext.has] at hx
        rw [htm] at hx
        cases hx
      obtain ⟨h1, h2, h3⟩ := h.2 hnt
      -- before which states a sign may stand
      have hch : ∀ {n : Nat}, c.code = n → isDigit n = false → s.nxt.has n = true := fun h0 _ => by rw [← h0]; exact hx
      split
      · rename_i hz
        rw [hz] at hx
        have hm : 4 ≤ s.state ∧ s.state ≤ 6 := by
          cases hy : s.nxt <;> rw [hy] at hx h3 <;> simp [TsNext.has, isDigit, isTerm] at hx <;> simp only [Nxt] at h3 <;> omega
        refine ⟨fun _ => ?_, fun h => absurd rfl h⟩
        have a := h2
        obtain ⟨a1, a2, -⟩ := a
        refine ⟨?_, rfl⟩
        simp only [TsTokens.upd]
        rw [Bool.eq_iff_iff, a1, a2]
        omega
      · split
        · rename_i hz
          rw [hz] at hx
          have hm : s.state ≤ 2 := by
            cases hy : s.nxt <;> rw [hy] at hx h3 <;> simp [TsNext.has, isDigit, isTerm] at hx <;> simp only [Nxt] at h3 <;> omega
          exact ⟨fun _ => h2.together (by omega), fun _ => ⟨h1, h2, .inr ⟨hz, hm⟩⟩⟩
        · split
          · rename_i hz
            refine ⟨by rintro ⟨⟩, fun _ => ⟨h1, h2, .inr ?_⟩⟩
            simp only [Bool.or_eq_true, decide_eq_true_eq] at hz
            rcases hz with ((hz | hz) | hz) | hz <;> rw [hz] at hx <;> (cases hy : s.nxt <;> rw [hy] at hx h3 <;> simp [TsNext.has, isDigit, isTerm] at hx) <;> simp only [Nxt] at h3 <;> dsimp only <;> omega
          · split
            · rename_i hd
              split
              · trivial
              · rename_i ht
                exact tsDigit_ok (s := { s with canTerminate := false }) (fun _ => ⟨h1, h2, h3⟩) rfl hd hx ht
            · rename_i h90 h84 hdel hd
              exfalso
              simp only [Bool.or_eq_true, decide_eq_true_eq, not_or] at hdel
              cases hy : s.nxt <;> rw [hy] at hx <;> simp [TsNext.has, htm, hd] at hx <;> first | (exact hnt hy) | omega

theorem onComment_ok {r : Option H} {b : Bool} {p : Option Nat} {x : Ctx} {c : Ch} (h : HOk? r) : OutOk (onComment r b p x c) := by
  unfold onComment
  cases r with
  | none =>
    dsimp only
    repeat' split
    all_goals trivial
  | some h' =>
    dsimp only
    repeat' split
    all_goals exact h

theorem thenOperator_ok {e : IonEvent} {c : Nat} {x : Ctx} {u : Nat} (h : Ev e) : OutOk (thenOperator e c x u) := by
  unfold thenOperator
  have := mkOperator_ok (c := c) (x := {})
  split
  · trivial
  · rename_i hm
    rw [hm] at this
    exact ⟨h, this⟩

theorem onSexpSlash_ok {r : Option H} {p : Option IonEvent} {x : Ctx} {c : Ch} (h : HOk? r) (hp : ∀ e, p = some e → Ev e) : OutOk (onSexpSlash r p x c) := by
  unfold onSexpSlash
  split
  · trivial
  · split
    · cases r with
      | none => trivial
      | some h' => exact h
    · split
      · exact thenOperator_ok (hp _ rfl)
      · exact andGo_ok mkOperator_ok

theorem onLong_ok {v : Env} {f cl : Bool} {n : Nat} {d fst : Bool} {x : Ctx} {c : Ch} : OutOk (onLong v f cl n d fst x c) := by
  unfold onLong
  dsimp only
  split
  · split <;> trivial
  · split
    · split <;> trivial
    · split
      · unfold longQuotes
        dsimp only
        repeat' split
        all_goals first | trivial | exact ⟨only_ok, rfl⟩ | exact ⟨⟨only_ok, rfl⟩, trivial⟩
      · split
        · trivial
        · unfold longAfter
          dsimp only
          repeat' split
          all_goals first | trivial | exact ⟨only_ok, rfl⟩ | exact andGo_ok mkClobEnd_ok | (exact ⟨trivial, by rintro _ ⟨⟩; exact ⟨only_ok, rfl⟩⟩)

theorem onTypedNull_ok {v : Env} {n : NullNode} {x : Ctx} {c : Ch} : OutOk (onTypedNull v n x c) := by
  unfold onTypedNull
  repeat' split
  all_goals first | trivial | exact ⟨only_ok, rfl⟩

theorem kwEvent_ok {k : Kw} {v : Env} {x : Ctx} : Ev (k.event v x) := by
  cases k <;> exact ⟨only_ok, rfl⟩

def ResOk? : Option Res → Prop
  | none => True
  | some r => ResOk r

theorem checkKeyword_ok {v : Env} {k : Kw} {f : Bool} {i : Nat} {x : Ctx} {c : Nat} {r : Bool × Option Res} (h : checkKeyword v k f i x c = .ok r) : ResOk? r.2 := by
  unfold checkKeyword at h
  repeat' split at h
  all_goals cases h
  all_goals first | trivial | exact kwEvent_ok

theorem keywordChecks_ok {v : Env} {s s' : KwState} {x : Ctx} {c : Nat} {r : Option Res} (h : keywordChecks v s x c = .ok (s', r)) : ResOk? r := by
  unfold keywordChecks at h
  have chk : ∀ {k : Kw} {f : Bool} {i : Nat} {g : Bool × Option Res → KwState × Option Res}, (∀ q, (g q).2 = q.2) → (checkKeyword v k f i x c >>= fun q => pure (g q)) = .ok (s', r) → ResOk? r := by
    intro k f i g hg hk
    cases hq : checkKeyword v k f i x c with
    | error e => rw [hq] at hk; cases hk
    | ok q =>
      rw [hq] at hk
      have h1 : g q = (s', r) := Except.ok.inj hk
      have := checkKeyword_ok hq
      rw [← hg q, h1] at this
      exact this
  have hs : ∀ s : KwState, (∀ tr : Option Res, ResOk? tr →
      (if s.maybeNan = true then (do let r ← checkKeyword v .nan s.isField s.index x c; return ({ s with maybeNan := r.1 }, r.2))
      else if s.maybeTrue = true then (do let r ← checkKeyword v .true_ s.isField s.index x c; return ({ s with maybeTrue := r.1 }, r.2))
      else if s.maybeFalse = true then (do let r ← checkKeyword v .false_ s.isField s.index x c; return ({ s with maybeFalse := r.1 }, r.2))
      else return (s, tr) : Except PyErr (KwState × Option Res)) = .ok (s', r) → ResOk? r) := by
    intro s tr htr h
    split at h
    · exact chk (by simp) h
    · split at h
      · exact chk (by simp) h
      · split at h
        · exact chk (by simp) h
        · cases h; exact htr
  by_cases hn : s.maybeNull = true
  · rw [if_pos hn] at h
    cases hq : checkKeyword v .null s.isField s.index x c with
    | error e => rw [hq] at h; cases h
    | ok q =>
      rw [hq] at h
      exact hs _ q.2 (checkKeyword_ok hq) h
  · rw [if_neg hn] at h
    exact hs _ none trivial h

theorem onKeyword_ok {v : Env} {s : KwState} {x : Ctx} {c : Ch} : OutOk (onKeyword v s x c) := by
  unfold onKeyword
  split
  · trivial
  · rename_i hk
    have := keywordChecks_ok hk
    split
    · split
      · exact this
      · trivial
    · unfold notKeyword
      repeat' split
      all_goals first | trivial | exact andGo_ok mkUnquoted_ok | (exact symbolEvent_ok (by assumption))

theorem notInf_ok {v : Env} {i : Nat} {x : Ctx} {c : Nat} : OutOk (notInf v i x c) := by
  unfold notInf
  split
  · trivial
  · split
    · trivial
    · split
      · split
        · exact andGo_ok mkOperator_ok
        · split
          · trivial
          · exact symbolEvent_ok (by assumption)
      · split
        · trivial
        · rename_i he
          have := mkUnquoted_ok (v := v) (c := c) (x := { value := infSuffix.take i }) (f := false)
          split
          · trivial
          · rename_i hm
            rw [hm] at this
            exact ⟨symbolEvent_ok he, this⟩

theorem onInf_ok {v : Env} {b : Bool} {i : Nat} {x : Ctx} {c : Ch} : OutOk (onInf v b i x c) := by
  unfold onInf
  dsimp only
  repeat' split
  all_goals first | trivial | exact ⟨only_ok, rfl⟩ | exact notInf_ok

theorem onUnquoted_ok {v : Env} {f : Bool} {p : Nat} {x : Ctx} {c : Ch} : OutOk (onUnquoted v f p x c) := by
  unfold onUnquoted
  repeat' split
  all_goals first | trivial | exact symbolEnd_ok

theorem onDollar_ok {v : Env} {s : DollarState} {x : Ctx} {c : Ch} : OutOk (onDollar v s x c) := by
  unfold onDollar
  split
  · trivial
  · split
    · unfold dollarEnd
      repeat' split
      all_goals first | trivial | exact symbolEnd_ok
    · dsimp only
      repeat' split
      all_goals first | trivial | exact andGo_ok mkUnquoted_ok

theorem onShort_ok {v : Env} {f cl : Bool} {h : H} {x : Ctx} {c : Ch} (hh : HOk h) : OutOk (onShort v f cl h x c) := by
  unfold onShort
  repeat' split
  all_goals first | trivial | exact ⟨only_ok, rfl⟩ | exact hh | exact andGo_ok mkClobEnd_ok

theorem onQuotedSymbol_ok {v : Env} {f : Bool} {x : Ctx} {c : Ch} : OutOk (onQuotedSymbol v f x c) := by
  unfold onQuotedSymbol
  repeat' split
  all_goals first | trivial | exact symbolEnd_ok

theorem onLobStart_ok {q : Nat} {x : Ctx} {c : Ch} : OutOk (onLobStart q x c) := by
  unfold onLobStart
  split
  · split <;> trivial
  · split
    · split
      · trivial
      · split
        · trivial
        · exact andGo_ok mkShort_ok
    · split
      · split
        · trivial
        · split
          · exact andGo_ok mkLong_ok
          · trivial
      · exact andGo_ok mkBlobEnd_ok

theorem lobEvent_ok {v : Env} {ty : IonType} {x : Ctx} : OutOk (.ok (lobEvent v ty x)) := by
  exact ⟨parseLob_only ty x, rfl⟩

theorem onBlobEnd_ok {v : Env} {p d n : Nat} {x : Ctx} {c : Ch} : OutOk (onBlobEnd v p d n x c) := by
  unfold onBlobEnd
  repeat' split
  all_goals first | trivial | exact lobEvent_ok

theorem onClobEnd_ok {v : Env} {p : Nat} {x : Ctx} {c : Ch} : OutOk (onClobEnd v p x c) := by
  unfold onClobEnd
  repeat' split
  all_goals first | trivial | exact lobEvent_ok

theorem handle_ok {F : FloatText} (hF : FloatsOnly F) {v : Env} {x : Ctx} {h : H} {c : Ch} (hh : HOk h) : OutOk (handle F v x h c) := by
  cases h with
  | negStart =>
    unfold handle
    dsimp only
    repeat' split
    all_goals first | trivial | exact andGo_ok mkZeroStart_ok | exact andGo_ok mkNumeric_ok
  | zeroStart =>
    unfold handle
    dsimp only
    repeat' split
    all_goals first | exact endNumber_ok ⟨someVal_only (parseInt_only _), rfl⟩ | exact andGo_ok mkNumeric_ok | exact andGo_ok mkTsZero_ok | exact andGo_ok wholeTable_ok
  | number =>
    unfold handle
    dsimp only
    repeat' split
    all_goals first | trivial | exact endNumber_ok ⟨someVal_only (parseInt_only _), rfl⟩ | exact andGo_ok mkNumeric_ok | exact andGo_ok (mkTimestamp_ok (by assumption)) | exact andGo_ok wholeTable_ok
  | slashEnd e =>
    unfold handle
    dsimp only
    split
    · trivial
    · exact ⟨hh, trivial⟩
  | numeric k p => exact onNumeric_ok hF
  | tsZero =>
    unfold handle
    dsimp only
    repeat' split
    all_goals first | trivial | exact andGo_ok (mkTimestamp_ok (by assumption))
  | ts s => exact onTs_ok hh
  | comment r =>
    unfold handle
    dsimp only
    split
    · trivial
    · cases r with
      | none => trivial
      | some h' => exact hh
  | commentBody r b p =>
    refine onComment_ok ?_
    cases r with
    | none => trivial
    | some h' => exact hh
  | sexpSlash r p =>
    cases r with
    | none => exact onSexpSlash_ok trivial hh
    | some h' => exact onSexpSlash_ok hh.1 hh.2
  | long f cl n d fst => exact onLong_ok
  | longSymbol e =>
    unfold handle
    dsimp only
    have := mkQuotedSymbol_ok (c := c) (x := {}) (f := false)
    split
    · trivial
    · rename_i hm
      rw [hm] at this
      exact ⟨hh, this⟩
  | typedNull n => exact onTypedNull_ok
  | operatorStart o =>
    unfold handle
    dsimp only
    split
    · trivial
    · exact andGo_ok mkOperator_ok
  | operatorAfter o =>
    unfold handle
    dsimp only
    split
    · trivial
    · split
      · trivial
      · split
        · trivial
        · exact thenOperator_ok (symbolEvent_ok (by assumption))
  | keyword s => exact onKeyword_ok
  | inf b i => exact onInf_ok
  | operator =>
    unfold handle
    dsimp only
    split
    · trivial
    · split
      · trivial
      · exact symbolEvent_ok (by assumption)
  | unquoted f p => exact onUnquoted_ok
  | dollar s => exact onDollar_ok
  | shortString => exact onShort_ok trivial
  | shortField => exact onShort_ok trivial
  | shortClob => exact onShort_ok trivial
  | quotedSymbol f => exact onQuotedSymbol_ok
  | quote1 f =>
    unfold handle
    dsimp only
    repeat' split
    all_goals first | trivial | exact andGo_ok mkQuotedSymbol_ok
  | quote2 f =>
    unfold handle
    dsimp only
    repeat' split
    all_goals first | trivial | exact andGo_ok mkLong_ok
  | structOrLob =>
    unfold handle
    dsimp only
    repeat' split
    all_goals trivial
  | lobStart q => exact onLobStart_ok
  | blobEnd p d n => exact onBlobEnd_ok
  | clobEnd p => exact onClobEnd_ok
  | containerStart ty => exact ⟨only_ok, rfl⟩

/-! ## The container generator -/

def PcOk : Pc → Prop
  | .token h _ => HOk h
  | .afterEvent _ _ n => HOk? n
  | _ => True

/-- The events of an action, whatever is read. -/
def ActOk : Act → Prop
  | .err _ => True
  | .emit e s => Ev e ∧ PcOk s.pc
  | .read _ _ k => ∀ c, ActOk (k c)
  | .unread _ a => ActOk a
  | .wait a => ActOk a
  | .go s => PcOk s.pc

theorem readHex_ok {k : Nat → Act} (hk : ∀ c, ActOk (k c)) : ∀ (n a : Nat), ActOk (readHex n a k) := by
  intro n
  induction n with
  | zero => intro a; exact hk a
  | succ n ih =>
    intro a c
    dsimp only
    split
    · exact ih _
    · trivial

theorem decoded_ok {cp : Nat} {l : Bool} {s : St} {k : Ch → Act} (hk : ∀ c, ActOk (k c)) : ActOk (decoded cp l s k) := by
  unfold decoded
  split
  · trivial
  split
  · trivial
  split
  case isFalse => exact hk _
  unfold lowEscape
  intro c
  dsimp only
  split
  · intro c
    try dsimp only
    repeat' split
    all_goals first | trivial | skip
    refine readHex_ok (fun c => ?_) _ _
    split
    · exact hk _
    · trivial
  · split <;> trivial

theorem newline_ok {c : Nat} {e : Bool} {k : Ch → Act} (hk : ∀ c, ActOk (k c)) : ActOk (newline c e k) := by
  unfold newline
  split
  · intro c
    try dsimp only
    repeat' split
    all_goals first | trivial | exact hk _
  · exact hk _

theorem codePoint_ok {cl : Bool} {s : St} {k : Ch → Act} (hk : ∀ c, ActOk (k c)) : ActOk (codePoint cl s k) := by
  intro c
  try dsimp only
  split
  · trivial
  · split
    · intro c
      try dsimp only
      split
      · exact hk _
      · trivial
    · split
      · intro c
        try dsimp only
        repeat' split
        all_goals first | trivial | exact hk _ | exact newline_ok hk | exact readHex_ok (fun c => decoded_ok hk) _ _
      · exact newline_ok hk

theorem onRes_ok {s : St} {x : Ctx} {c : Option Nat} {r : Res} (h : ResOk r) : ActOk (onRes s x c r) := by
  cases r with
  | imm h' => exact h
  | self =>
    unfold onRes onSelf
    dsimp only
    repeat' split
    all_goals first | trivial | (intro c; trivial)
  | event e =>
    unfold onRes
    dsimp only
    repeat' split
    all_goals first | trivial | exact ⟨h, trivial⟩
  | composite e n nx => exact h

theorem onChar_ok {F : FloatText} (hF : FloatsOnly F) {s : St} {x : Ctx} {h : H} {c : Option Ch} (hh : HOk h) : ActOk (onChar F s x h c) := by
  unfold onChar
  have := handle_ok hF (v := s.env) (x := x) (c := c.getD { code := EOF }) hh
  split
  · trivial
  · rename_i ho
    rw [ho] at this
    dsimp only
    split <;> exact onRes_ok this

theorem onStart_ok {s : St} {c : Nat} : ActOk (onStart s c) := by
  unfold onStart
  dsimp only
  split
  · split
    · split
      · exact fun e he => by cases he
      · split
        · trivial
        · split
          · trivial
          · rename_i he
            exact fun e h => by cases h; exact symbolEvent_ok he
    · trivial
  · split
    · trivial
    · split
      · split
        · split
          · split <;> trivial
          · intro c
            try dsimp only
            repeat' split
            all_goals trivial
        · split
          · trivial
          · split
            · trivial
            · rename_i he
              exact ⟨symbolEvent_ok he, trivial⟩
      · have hm : ∀ {x}, MkOk (if s.isField then fieldTable s.env c x else valueTable s.env c x) := by
          intro x
          split
          · exact fieldTable_ok
          · exact valueTable_ok
        split
        · trivial
        · rename_i he
          have := @hm (if decorated s.child then s.child.getD {} else {})
          rw [show (if s.isField then fieldTable s.env c _ else valueTable s.env c _) = _ from he] at this
          exact this

theorem onHead_ok {s : St} {c : Option Nat} : ActOk (onHead s c) := by
  unfold onHead
  split
  · intro c; trivial
  · split
    · split
      · split
        · trivial
        · split
          · trivial
          · split
            · trivial
            · rename_i he
              exact ⟨symbolEvent_ok he, trivial⟩
      · unfold onClose
        dsimp only
        repeat' split
        all_goals first | trivial | exact ⟨⟨only_ok, rfl⟩, trivial⟩ | (intro c; trivial)
    · split
      · intro c; trivial
      · exact onStart_ok

theorem next_ok {F : FloatText} (hF : FloatsOnly F) {s : St} (h : PcOk s.pc) : ActOk (next F s) := by
  unfold next
  split
  · exact onHead_ok
  · rename_i h' q hp
    rw [hp] at h
    unfold onToken
    dsimp only
    split
    · exact onChar_ok hF h
    · exact onChar_ok hF h
    · split
      · exact codePoint_ok fun c => onChar_ok hF h
      · exact fun c => onChar_ok hF h
  · rename_i c sd n hp
    rw [hp] at h
    dsimp only
    cases n with
    | none =>
      split
      · exact fun c => trivial
      · trivial
    | some h' =>
      split
      · exact fun c => h
      · exact h
  · trivial
  · intro c; trivial
  · intro c
    try dsimp only
    split
    · show PcOk s.pc
      exact h
    · trivial

/-! ## The requests -/

def OutcomeOk : Outcome → Prop
  | .event e s _ => Ev e ∧ PcOk s.pc
  | .block _ _ k _ => ∀ c, ActOk (k c)
  | .waiting a _ => ActOk a
  | .error _ => True

theorem advance_ok {F : FloatText} (hF : FloatsOnly F) {a : Act} {q : BufferQueue Nat} {o : Outcome} (ha : ActOk a) (h : advance F a q = some o) : OutcomeOk o := by
  refine advance.partial_correctness F (fun a q o => ActOk a → OutcomeOk o) ?_ a q o h ha
  intro f ih a q o h ha
  cases a with
  | err e => cases h; trivial
  | emit e s => cases h; exact ha
  | read b1 b2 k =>
    dsimp only at h
    split at h
    · cases h; exact ha
    · split at h
      · cases h; trivial
      · exact ih _ _ _ h (ha _)
  | unread c a =>
    dsimp only at h
    split at h
    · cases h; trivial
    · exact ih _ _ _ h ha
  | wait a =>
    dsimp only at h
    split at h
    · cases h; exact ha
    · cases h; trivial
  | go s => exact ih _ _ _ h (next_ok hF ha)

def StatusV : Status → Prop
  | .paused _ s _ _ => PcOk s.pc
  | .blocked _ _ k _ _ _ => ∀ c, ActOk (k c)
  | .waiting a _ _ _ => ActOk a
  | _ => True

/-- What is known of an answer: the value of the event, and that only requests for data and the end of the stream have no depth. -/
def AnswerV (r : Except PyErr IonEvent × Status) : Prop := StatusV r.2 ∧ ∀ e, r.1 = .ok e → Only e.value ∧ (e.eventType.isStreamSignal = true → e.depth = none)

theorem deliver_ok {F : FloatText} (hF : FloatsOnly F) {d : Int} {sk : Bool} {a : Act} {q : BufferQueue Nat} {r : Except PyErr IonEvent × Status} (ha : ActOk a) (h : deliver F d sk a q = some r) : AnswerV r := by
  refine deliver.partial_correctness F d (fun sk a q r => ActOk a → AnswerV r) ?_ sk a q r h ha
  intro f ih sk a q r h ha
  cases ho : advance F a q with
  | none => rw [ho] at h; cases h
  | some o =>
    rw [ho] at h
    have h1 := advance_ok hF ha ho
    simp only [Option.bind_eq_bind, Option.bind_some] at h
    cases o with
    | error e => cases h; exact ⟨trivial, by rintro _ ⟨⟩⟩
    | block b f k q =>
      dsimp only at h
      split at h
      · cases h
      · cases h
        refine ⟨h1, ?_⟩
        cases b <;> (rintro _ ⟨⟩; exact ⟨only_ok, fun _ => rfl⟩)
    | waiting a q =>
      dsimp only at h
      split at h
      · cases h
      · cases h
        exact ⟨h1, by rintro _ ⟨⟩; exact ⟨only_ok, fun _ => rfl⟩⟩
    | event e s q =>
      dsimp only at h
      split at h
      · split at h
        · cases h; exact ⟨h1.2, by rintro _ ⟨⟩; exact ⟨h1.1.1, fun h => by rw [h1.1.2] at h; cases h⟩⟩
        · exact ih _ _ _ _ h h1.2
      · split at h
        · cases h; exact ⟨h1.2, by rintro _ ⟨⟩; exact ⟨h1.1.1, fun h => by rw [h1.1.2] at h; cases h⟩⟩
        · cases h; exact ⟨h1.2, by rintro _ ⟨⟩; exact ⟨h1.1.1, fun h => by rw [h1.1.2] at h; cases h⟩⟩

/-- One request. -/
theorem send_values {F : FloatText} (hF : FloatsOnly F) {units : Bytes → List Nat} {st : Status} {cmd : RawReader.Cmd} (hs : StatusV st) : AnswerV (send F units st cmd) := by
  have go : ∀ {d sk a q}, ActOk a → AnswerV (orDiverge (deliver F d sk a q)) := by
    intro d sk a q ha
    cases h : deliver F d sk a q with
    | none => exact ⟨trivial, by rintro _ ⟨⟩⟩
    | some r => exact deliver_ok hF ha h
  have dead : ∀ {e : PyErr}, AnswerV (.error e, .dead) := fun {e} => ⟨trivial, by rintro _ ⟨⟩⟩
  unfold send
  repeat' split
  all_goals first | exact dead | exact go hs | exact go (a := .go {}) trivial

end Ion.TextReader.Values

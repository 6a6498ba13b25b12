import Verif.TextTotal
set_option linter.unusedSimpArgs false
/-!
# Exceptions of the text reader

No assertion of the text reader fails, whatever the characters are: an invariant of the context of a child value, of the handlers and of the
container generator.
-/
namespace Ion.TextReader.Calm
open Ion Ion.Queue Ion.TextReader

/-- The exceptions that the text reader raises. -/
def Raised (e : PyErr) : Prop := e = .ionException ∨ e = .typeError ∨ e = .valueError ∨ e = .unicodeError ∨ e = .attributeError

/-- A context between tokens, at a depth. -/
def Rest (d : Nat) (x : Ctx) : Prop :=
  x.value = [] ∧ x.isText = false ∧ (x.pending = none → x.quoted = false) ∧ ∀ k, x.pending = some (.ivm k) → x.annotations = [] ∧ d = 0

/-- A context in which a value or a field name starts. -/
def Blank (x : Ctx) : Prop := x.value = [] ∧ x.isText = false ∧ x.quoted = false ∧ x.ionType = none ∧ x.pending = none

/-- What handlers rely on. -/
def HSafe (d : Nat) (x : Ctx) : H → Prop
  | .negStart => x.value = [45] ∧ x.isText = false ∧ x.ionType = some .int
  | .zeroStart => (x.value = [48] ∨ x.value = [45, 48]) ∧ x.ionType = some .int
  | .comment none | .commentBody none _ _ | .sexpSlash none _ => Rest d x
  | .comment (some h) | .commentBody (some h) _ _ => HSafe d x h ∧ ∀ e, h ≠ .longSymbol e
  | .sexpSlash (some h) e => (HSafe d x h ∧ ∀ e, h ≠ .longSymbol e) ∧ e.isSome = true
  | .long true _ _ inData _ => x.value = [] ∧ x.isText = false ∧ (∃ t, x.pending = some (.text t)) ∧ (inData = false → x.quoted = false)
  | .long false _ _ inData _ => inData = false → x.quoted = false
  | .operatorStart _ | .inf _ _ => x.isText = false
  | .operatorAfter _ => x.value ≠ []
  | .keyword _ => x.value ≠ [] ∧ (x.isText = true → x.quoted = false)
  | .dollar s => x.value ≠ [] ∧ (x.isText = true → x.quoted = false) ∧ (s.maybeSid = true → s.maybeIvm = true → x.value.length = 1 ∧ s.index = 1) ∧
      (s.maybeIvm = true ∨ s.completeIvm = true → x.annotations = [] ∧ d = 0)
  | .shortField => x.value = [] ∧ x.isText = false ∧ ∃ t, x.pending = some (.text t)
  | .quote1 _ => x.value = [] ∧ x.isText = false ∧ x.ionType = none
  | .quote2 _ => x.value = [] ∧ x.isText = false ∧ x.ionType = some .symbol
  | .structOrLob => x.value = [] ∧ x.isText = false
  | .lobStart n => x.value = [] ∧ (n = 0 → x.isText = false) ∧ (x.isText = true → x.quoted = true)
  | _ => True

/-- What handlers return. -/
def ResSafe (d : Nat) (x : Ctx) : Res → Prop
  | .imm h => HSafe d x h
  | .self => Rest d x
  | .event _ => True
  | .composite _ none nx => Rest d nx ∧ nx.ionType = none
  | .composite _ (some h) nx => HSafe d nx h ∧ ∀ e, h ≠ .longSymbol e

/-- What a handler makes of a character `c`: what it gives back is that character, and not the end of the data; before `longSymbol` a character that is no quote is given back. -/
def Sound (d : Nat) (c : Nat) : Except PyErr Out → Prop
  | .error e => Raised e
  | .ok o => ResSafe d o.ctx o.res ∧ (∀ u, o.unread = some u → u = c ∧ u ≠ EOF) ∧ (∀ e, o.res = .imm (.longSymbol e) → o.unread ≠ none ∧ c ≠ 39)

/-- What the creation of a handler gives. -/
def Sets (d : Nat) : Except PyErr (Ctx × H) → Prop
  | .error e => Raised e
  | .ok (x, h) => HSafe d x h ∧ ∀ e, h ≠ .longSymbol e

theorem raised_ion : Raised .ionException := .inl rfl
theorem raised_type : Raised .typeError := .inr (.inl rfl)
theorem raised_value : Raised .valueError := .inr (.inr (.inl rfl))

variable {d c : Nat} {x : Ctx} {v : Env} {F : FloatText}

theorem sound_andGo {r : Except PyErr (Ctx × H)} {u : Option Nat} (h : Sets d r) (hu : ∀ u', u = some u' → u' = c ∧ u' ≠ EOF) : Sound d c (andGo r u) := by
  unfold andGo
  split
  · exact h
  · exact ⟨h.1, hu, fun e he => by cases he; exact absurd rfl (h.2 e)⟩

theorem sound_go {r : Except PyErr (Ctx × H)} (h : Sets d r) : Sound d c (andGo r) := sound_andGo h (by rintro _ ⟨⟩)

theorem sound_ok {r : Res} (h : ResSafe d x r) (hr : ∀ e, r ≠ .imm (.longSymbol e)) : Sound d c (.ok { ctx := x, res := r }) :=
  ⟨h, by rintro _ ⟨⟩, fun e he => absurd he (hr e)⟩

theorem sound_event {e : IonEvent} : Sound d c (.ok { ctx := x, res := .event e }) := sound_ok trivial (by rintro e ⟨⟩)

theorem setUnicode_text (h : x.isText = false) (b : Bool) : x.setUnicode b = .ok { x with isText := true, quoted := b, lineComment := false } := by
  simp [Ctx.setUnicode, h]

theorem setUnicode_same {b : Bool} (h : x.isText = true → x.quoted = b) : ∃ y, x.setUnicode b = .ok y ∧ y.value = x.value ∧ y.isText = true ∧ y.quoted = b ∧ y.ionType = x.ionType ∧ y.annotations = x.annotations ∧ y.pending = x.pending := by
  unfold Ctx.setUnicode
  cases ht : x.isText with
  | true => exact ⟨x, by simp [h ht], rfl, ht, h ht, rfl, rfl, rfl⟩
  | false => exact ⟨_, rfl, rfl, rfl, rfl, rfl, rfl, rfl⟩

@[simp] theorem setType_value (t : Option IonType) : (x.setType t).value = x.value := by unfold Ctx.setType; split <;> rfl
@[simp] theorem setType_isText (t : Option IonType) : (x.setType t).isText = x.isText := by unfold Ctx.setType; split <;> rfl
@[simp] theorem setType_quoted (t : Option IonType) : (x.setType t).quoted = x.quoted := by unfold Ctx.setType; split <;> rfl
@[simp] theorem setType_pending (t : Option IonType) : (x.setType t).pending = x.pending := by unfold Ctx.setType; split <;> rfl
@[simp] theorem setType_annotations (t : Option IonType) : (x.setType t).annotations = x.annotations := by unfold Ctx.setType; split <;> rfl
@[simp] theorem setType_ionType (t : Option IonType) : (x.setType t).ionType = t := by unfold Ctx.setType; split <;> simp_all
@[simp] theorem push_value : (x.push c).value = x.value ++ [c] := rfl
@[simp] theorem push_isText : (x.push c).isText = x.isText := rfl
@[simp] theorem push_quoted : (x.push c).quoted = x.quoted := rfl
@[simp] theorem push_ionType : (x.push c).ionType = x.ionType := rfl
@[simp] theorem push_annotations : (x.push c).annotations = x.annotations := rfl

/-! ## Creation of handlers -/

theorem sets_operator (h : x.isText = true → x.quoted = false) : Sets d (mkOperator c x) := by
  obtain ⟨y, hy, _⟩ := setUnicode_same h
  simp only [mkOperator, hy]
  exact ⟨trivial, by rintro e ⟨⟩⟩

theorem sets_unquoted {f : Bool} (h : x.isText = true → x.quoted = false) (hv : x.value ≠ []) : Sets d (mkUnquoted v c x f) := by
  obtain ⟨y, hy, hy1, _⟩ := setUnicode_same h
  simp only [mkUnquoted, hy]
  split
  · exact ⟨trivial, by rintro e ⟨⟩⟩
  · split
    · exact ⟨by simpa only [HSafe, hy1] using hv, by rintro e ⟨⟩⟩
    · exact raised_ion

theorem sets_numeric {k : NumKind} (h : k = .binary ∨ k = .hex → (x.value = [48] ∨ x.value = [45, 48]) ∧ x.ionType = some .int) : Sets d (mkNumeric k c x) := by
  cases k with
  | binary =>
    simp only [mkNumeric, if_pos (h (.inl rfl))]
    exact ⟨trivial, by rintro e ⟨⟩⟩
  | hex =>
    simp only [mkNumeric, if_pos (h (.inr rfl))]
    exact ⟨trivial, by rintro e ⟨⟩⟩
  | _ => exact ⟨trivial, by rintro e ⟨⟩⟩

theorem sets_timestamp : Sets d (mkTimestamp c x) := by
  unfold mkTimestamp
  dsimp only
  split
  · exact raised_ion
  · exact ⟨trivial, by rintro e ⟨⟩⟩

theorem sets_zero (h : x.value = [] ∨ x.value = [45]) (hc : c = 48) : Sets d (mkZeroStart c x) := by
  unfold mkZeroStart
  rw [if_pos h]
  refine ⟨⟨?_, by simp⟩, by rintro e ⟨⟩⟩
  rcases h with h | h <;> simp [h, hc]

theorem sets_tsZero (h : x.value ≠ []) : Sets d (mkTsZero c x) := by
  unfold mkTsZero
  dsimp only
  split
  · rename_i h1; rw [setType_value] at h1; exact absurd h1 h
  · split
    · exact raised_ion
    · exact ⟨trivial, by rintro e ⟨⟩⟩

theorem sets_whole {b : Bool} : Sets d (wholeTable b c x) := by
  unfold wholeTable
  split
  · exact sets_numeric (by simp)
  · split
    · exact sets_numeric (by simp)
    · split
      · exact sets_numeric (by simp)
      · exact raised_ion

theorem sets_quotedSymbol {f : Bool} {c : Ch} (h : x.isText = true → x.quoted = true) (ht : x.ionType ≠ some .clob) (hc : ¬ (c.code = 39 ∧ ¬ c.esc)) : Sets d (mkQuotedSymbol c x f) := by
  unfold mkQuotedSymbol
  rw [if_neg hc]
  obtain ⟨y, hy, _, _, _, hy2, _⟩ := setUnicode_same h
  rw [hy]
  dsimp only
  rw [if_neg (by rw [hy2]; exact ht)]
  split
  · exact raised_type
  · split
    · exact raised_ion
    · exact ⟨trivial, by rintro e ⟨⟩⟩

theorem sets_short {f : Bool} (h : x.isText = true → x.quoted = true) (hf : f = true → x.value = [] ∧ x.ionType ≠ some .clob) : Sets d (mkShort x f) := by
  unfold mkShort
  dsimp only
  obtain ⟨y, hy, hy1, _⟩ := setUnicode_same h
  rw [hy]
  dsimp only
  split
  · rename_i hf'
    obtain ⟨h1, h2⟩ := hf hf'
    rw [if_neg (by simp [hy1, h1, h2])]
    exact ⟨⟨rfl, rfl, _, rfl⟩, by rintro e ⟨⟩⟩
  · split
    · exact ⟨trivial, by rintro e ⟨⟩⟩
    · exact ⟨trivial, by rintro e ⟨⟩⟩

theorem sets_long {f : Bool} (h : x.isText = true → x.quoted = true) (hv : x.value = []) (hf : f = true → x.ionType ≠ some .clob) : Sets d (mkLong x f) := by
  unfold mkLong
  dsimp only
  have hc : (decide (x.ionType = some .clob) && f) = false := by
    cases f with
    | false => simp
    | true => simpa using hf rfl
  rw [hc]
  simp only [Bool.false_eq_true, if_false]
  generalize hy : (if (!decide (x.ionType = some IonType.clob) && !f) = true then x.setType (some .string) else x) = y
  have h1 : y.value = [] := by rw [← hy]; split <;> simp [hv]
  have h2 : y.isText = true → y.quoted = true := by rw [← hy]; split <;> simpa using h
  obtain ⟨z, hz, hz1, hz2, hz3, _⟩ := setUnicode_same h2
  rw [if_neg (by simp [h1]), hz]
  dsimp only
  cases f with
  | true => exact ⟨⟨rfl, rfl, ⟨_, rfl⟩, by rintro ⟨⟩⟩, by rintro e ⟨⟩⟩
  | false => exact ⟨by rintro ⟨⟩, by rintro e ⟨⟩⟩

theorem sets_clobEnd : Sets d (mkClobEnd c x) := by
  unfold mkClobEnd
  split
  · exact ⟨trivial, by rintro e ⟨⟩⟩
  · split
    · exact ⟨trivial, by rintro e ⟨⟩⟩
    · exact raised_ion

theorem blobAction_raised {c prev n p : Nat} {e : PyErr} (h : blobAction c prev n p x = .error e) : Raised e := by
  unfold blobAction at h
  repeat' split at h
  all_goals cases h
  all_goals exact raised_ion

theorem sets_blobEnd : Sets d (mkBlobEnd c x) := by
  unfold mkBlobEnd
  split
  · exact ⟨trivial, by rintro e ⟨⟩⟩
  · split
    · rename_i h; exact blobAction_raised h
    · exact ⟨trivial, by rintro e ⟨⟩⟩

theorem sets_keyword {f : Bool} (h1 : x.value = []) (h2 : x.isText = false) : Sets d (mkKeyword v c x f) := by
  unfold mkKeyword
  split
  · rw [if_neg (by simp [h1]), setUnicode_text h2]
    exact ⟨⟨by simp, by simp⟩, by rintro e ⟨⟩⟩
  · split
    · exact ⟨h2, by rintro e ⟨⟩⟩
    · exact raised_ion

theorem sets_dollar {f : Bool} (h1 : x.value = []) (h2 : x.isText = false) : Sets v.depth (mkDollar v c x f) := by
  unfold mkDollar
  rw [setUnicode_text h2]
  refine ⟨⟨by simp, by simp, fun _ _ => by simp [h1], fun h => ?_⟩, by rintro e ⟨⟩⟩
  simp only [Bool.and_eq_true, decide_eq_true_eq, Bool.not_eq_true', Bool.false_eq_true, or_false] at h
  obtain ⟨⟨h, _⟩, h'⟩ := h
  refine ⟨?_, h⟩
  simpa using h'

theorem sets_field (h : Blank x) : Sets v.depth (fieldTable v c x) := by
  obtain ⟨h1, h2, h3, h4, h5⟩ := h
  unfold fieldTable
  repeat' split
  · exact ⟨⟨h1, h2, h4⟩, by rintro e ⟨⟩⟩
  · exact sets_short (by simp [h2]) (fun _ => ⟨h1, by simp [h4]⟩)
  · exact sets_dollar h1 h2
  · exact sets_keyword h1 h2
  · exact raised_ion

theorem sets_value (h : Blank x) : Sets v.depth (valueTable v c x) := by
  obtain ⟨h1, h2, h3, h4, h5⟩ := h
  unfold valueTable
  split
  · rename_i hc
    rw [if_neg (by simp [h1])]
    exact ⟨⟨by simp [h1, hc], by simp [h2], by simp⟩, by rintro e ⟨⟩⟩
  · split
    · exact ⟨h2, by rintro e ⟨⟩⟩
    · split
      · exact sets_zero (.inl h1) (by assumption)
      · split
        · exact ⟨⟨h1, h2⟩, by rintro e ⟨⟩⟩
        · repeat' split
          · exact ⟨trivial, by rintro e ⟨⟩⟩
          · exact ⟨trivial, by rintro e ⟨⟩⟩
          · exact ⟨⟨h1, h2, h4⟩, by rintro e ⟨⟩⟩
          · exact sets_short (by simp [h2]) (by simp)
          · exact sets_dollar h1 h2
          · exact ⟨trivial, by rintro e ⟨⟩⟩
          · exact sets_keyword h1 h2

/-! ## Handlers -/

theorem sound_endNumber {c' : Ch} {e : IonEvent} : Sound d c (endNumber x c' e) := by
  unfold endNumber
  split
  · exact sound_ok trivial (by rintro e ⟨⟩)
  · exact sound_event

theorem sound_numeric {k : NumKind} {p : Nat} {c' : Ch} : Sound d c (onNumeric F v k p x c') := by
  unfold onNumeric NumKind.transition
  repeat' split
  all_goals first | exact raised_ion | exact sound_endNumber | exact sound_ok trivial (by rintro e ⟨⟩) | exact sound_go sets_whole

theorem tsDigit_raised {s : TsState} {e : PyErr} (h : tsDigit s c = .error e) : Raised e := by
  unfold tsDigit at h
  dsimp only at h
  repeat' split at h
  all_goals cases h
  all_goals exact raised_value

theorem sound_ts {s : TsState} {c' : Ch} : Sound d c (onTs v s x c') := by
  unfold onTs
  dsimp only
  repeat' split
  all_goals first | exact raised_ion | exact sound_endNumber | exact sound_ok trivial (by rintro e ⟨⟩) | skip
  rename_i h
  exact tsDigit_raised h

theorem rest_line {b : Bool} (h : Rest d x) : Rest d { x with lineComment := b } := h
theorem rest_delim {b : Bool} (h : Rest d x) : Rest d { x with selfDelim := b } := h

theorem hsafe_flags (b1 b2 : Bool) : (h : H) → HSafe d x h → HSafe d { x with lineComment := b1, selfDelim := b2 } h
  | .comment none | .commentBody none _ _ | .sexpSlash none _ => id
  | .comment (some h) | .commentBody (some h) _ _ => fun hh => ⟨hsafe_flags b1 b2 h hh.1, hh.2⟩
  | .sexpSlash (some h) _ => fun hh => ⟨⟨hsafe_flags b1 b2 h hh.1.1, hh.1.2⟩, hh.2⟩
  | .long true _ _ _ _ | .long false _ _ _ _ => id
  | .negStart | .zeroStart | .number | .numeric _ _ | .ts _ | .shortString => id
  | .slashEnd _ | .longSymbol _ => id
  | .keyword _ | .unquoted _ _ | .dollar _ | .shortField | .quotedSymbol _ | .quote1 _ | .quote2 _ => id
  | .containerStart _ | .operatorAfter _ => id
  | .tsZero | .typedNull _ | .operatorStart _ | .inf _ _ | .operator | .shortClob | .structOrLob | .lobStart _ | .blobEnd _ _ _ | .clobEnd _ => id

theorem sound_comment {ret : Option H} {b : Bool} {p : Option Nat} {c' : Ch} (h : HSafe d x (.commentBody ret b p)) : Sound d c (onComment ret b p x c') := by
  unfold onComment
  dsimp only
  generalize (if b = true then decide (p = some 42) && decide (c'.code = 47) else isNewline c'.code || decide (c'.code = EOF)) = stop
  cases stop with
  | true =>
    cases ret with
    | none => exact sound_ok (r := .self) (rest_delim h) (by rintro e ⟨⟩)
    | some h' => exact sound_ok (r := .imm h') (hsafe_flags x.lineComment true h' h.1) (fun e he => by cases he; exact h.2 e rfl)
  | false =>
    refine sound_ok ?_ (by rintro e ⟨⟩)
    cases ret with
    | none => exact h
    | some h' => exact h

theorem checkUnread_ok {c' : Ch} {u : Nat} (h : checkUnread c' = .ok u) : u = c'.code ∧ u ≠ EOF := by
  unfold checkUnread at h
  split at h
  · cases h
  · cases h; exact ⟨rfl, by assumption⟩

theorem checkUnread_error {c' : Ch} {e : PyErr} (h : checkUnread c' = .error e) : Raised e := by
  unfold checkUnread at h
  split at h
  · cases h; exact raised_type
  · cases h

theorem sound_thenOperator {e : IonEvent} {o u : Nat} (hu : u = c ∧ u ≠ EOF) : Sound d c (thenOperator e o x u) := by
  simp only [thenOperator, mkOperator, Ctx.setUnicode]
  exact ⟨⟨trivial, by rintro e ⟨⟩⟩, by rintro _ ⟨⟩; exact hu, by rintro e ⟨⟩⟩

theorem sound_sexpSlash {ret : Option H} {e : Option IonEvent} {c' : Ch} (h : HSafe d x (.sexpSlash ret e)) : Sound d c'.code (onSexpSlash ret e x c') := by
  unfold onSexpSlash
  split
  · rename_i hu; exact checkUnread_error hu
  · rename_i u hu
    have hu := checkUnread_ok hu
    split
    · refine ⟨?_, by rintro _ ⟨⟩; exact hu, by rintro e ⟨⟩⟩
      cases ret with
      | none => exact h
      | some h' => exact h.1
    · split
      · exact sound_thenOperator hu
      · refine sound_andGo (sets_operator ?_) (by rintro _ ⟨⟩; exact hu)
        cases ret with
        | none => intro ht; rw [h.2.1] at ht; cases ht
        | some h' => cases h.2

theorem rest_pending {y : Ctx} (h1 : y.value = []) (h2 : y.isText = false) {t : Text} (h3 : y.pending = some (.text t)) : Rest d y :=
  ⟨h1, h2, by simp [h3], by simp [h3]⟩

theorem rest_setPending {t : Text} : Rest d (x.setPending (.text t)) := ⟨rfl, rfl, by rintro ⟨⟩, by rintro k ⟨⟩⟩

theorem sound_long {f cl : Bool} {n : Nat} {b first : Bool} {c' : Ch} (h : HSafe d x (.long f cl n b first)) (hc : b = false → c'.esc = false) :
    Sound d c'.code (onLong v f cl n b first x c') ∧ ∀ o, onLong v f cl n b first x c' = .ok o → (∃ e, o.res = .imm (.longSymbol e)) → c'.code ≠ 39 := by
  have hb : b = false → x.quoted = false := by
    cases f with
    | true => exact h.2.2.2
    | false => exact h
  unfold onLong
  dsimp only
  generalize hy : (if first = true then x else { x with selfDelim := false }) = y
  have h : HSafe d y (.long f cl n b first) := by
    rw [← hy]
    split
    · exact h
    · exact hsafe_flags x.lineComment false _ h
  have hb : b = false → y.quoted = false := by rw [← hy]; split <;> exact hb
  have key : ∀ (z : Ctx) (n' : Nat) (b' first' : Bool), z.value = y.value → z.isText = y.isText → z.pending = y.pending → (b' = false → z.quoted = false) → HSafe d z (.long f cl n' b' first') := by
    intro z n' b' first' h1 h2 h3 h4
    cases f with
    | true => exact ⟨h1.trans h.1, h2.trans h.2.1, by rw [h3]; exact h.2.2.1, h4⟩
    | false => exact h4
  split
  · split
    · refine ⟨sound_ok (key _ _ _ _ rfl rfl rfl fun hb' => ?_) (by rintro e ⟨⟩), by rintro o ⟨⟩ ⟨e, ⟨⟩⟩⟩
      simpa [Ctx.setQuoted] using hb'
    · exact ⟨sound_ok (key _ _ _ _ rfl rfl rfl hb) (by rintro e ⟨⟩), by rintro o ⟨⟩ ⟨e, ⟨⟩⟩⟩
  · rename_i hq
    split
    · rename_i hb'
      subst hb'
      split
      · exact ⟨raised_ion, by rintro o ⟨⟩⟩
      · refine ⟨sound_ok ?_ (by rintro e ⟨⟩), by rintro o ⟨⟩ ⟨e, ⟨⟩⟩⟩
        cases f with
        | false => intro hh; cases hh
        | true =>
          obtain ⟨h1, h2, ⟨t, ht⟩, h4⟩ := h
          exact ⟨h1, h2, ⟨t ++ _, by simp only [Ctx.extend, if_true, ht]; rfl⟩, by rintro ⟨⟩⟩
    · rename_i hb'
      have hb' : b = false := by simpa using hb'
      subst hb'
      have hq39 : c'.code ≠ 39 := fun h39 => hq ⟨h39, by rw [hc rfl]; simp⟩
      refine ⟨?_, fun _ _ _ => hq39⟩
      split
      · unfold longQuotes
        dsimp only
        split
        · exact raised_ion
        · split
          · exact raised_ion
          · split
            · split
              · exact raised_ion
              · refine ⟨trivial, ?_, fun e _ => ⟨by rintro ⟨⟩, hq39⟩⟩
                rintro _ ⟨⟩
                exact ⟨rfl, by assumption⟩
            · exact ⟨⟨⟨rfl, rfl, by rintro ⟨⟩, by rintro k ⟨⟩⟩, rfl⟩, by rintro _ ⟨⟩, by rintro e ⟨⟩⟩
      · split
        · exact sound_ok (key _ _ _ _ rfl rfl rfl hb) (by rintro e ⟨⟩)
        · unfold longAfter
          dsimp only
          split
          · exact sound_go sets_clobEnd
          · have here := key y 0 false false rfl rfl rfl hb
            split
            · split
              · exact sound_ok (r := .imm (.sexpSlash _ _)) ⟨⟨here, by rintro e ⟨⟩⟩, rfl⟩ (by rintro e ⟨⟩)
              · exact sound_ok (r := .imm (.comment _)) ⟨here, by rintro e ⟨⟩⟩ (by rintro e ⟨⟩)
            · split
              · rename_i hf
                subst hf
                split
                · exact raised_ion
                · obtain ⟨h1, h2, ⟨t, ht⟩, _⟩ := h
                  exact sound_ok (r := .self) (rest_pending h1 h2 ht) (by rintro e ⟨⟩)
              · exact sound_event

theorem sound_typedNull {n : NullNode} {c' : Ch} : Sound d c (onTypedNull v n x c') := by
  unfold onTypedNull
  repeat' split
  all_goals first | exact raised_ion | exact sound_event | exact sound_ok trivial (by rintro e ⟨⟩)

theorem symbolEvent_text {t : Text} {n : Nat} : ∃ e, x.symbolEvent n (.text t) = .ok e := ⟨_, rfl⟩

theorem checkKeyword_raised {k : Kw} {f : Bool} {i c : Nat} {e : PyErr} (h : checkKeyword v k f i x c = .error e) : Raised e := by
  unfold checkKeyword at h
  repeat' split at h
  all_goals cases h
  all_goals exact raised_ion

theorem checkKeyword_sound {k : Kw} {f b : Bool} {i c : Nat} {r : Res} (h : checkKeyword v k f i x c = .ok (b, some r)) : ResSafe d x r ∧ ∀ e, r ≠ .imm (.longSymbol e) := by
  unfold checkKeyword at h
  repeat' split at h
  all_goals cases h
  all_goals exact ⟨trivial, by rintro e ⟨⟩⟩

/-- What the checks for keywords give. -/
theorem keywordChecks_sound {s : KwState} {c : Nat} : (∀ e, keywordChecks v s x c = .error e → Raised e) ∧
    ∀ s' r, keywordChecks v s x c = .ok (s', some r) → ResSafe d x r ∧ ∀ e, r ≠ .imm (.longSymbol e) := by
  have one : ∀ (s1 : KwState) (k : Kw) (g : Bool → KwState),
      (∀ e, (do let r ← checkKeyword v k s1.isField s1.index x c
                return (g r.1, r.2) : Except PyErr (KwState × Option Res)) = .error e → Raised e) ∧
      ∀ s' r, (do let r ← checkKeyword v k s1.isField s1.index x c
                  return (g r.1, r.2) : Except PyErr (KwState × Option Res)) = .ok (s', some r) → ResSafe d x r ∧ ∀ e, r ≠ .imm (.longSymbol e) := by
    intro s1 k g
    cases hc : checkKeyword v k s1.isField s1.index x c with
    | error e => exact ⟨by rintro e' ⟨⟩; exact checkKeyword_raised hc, by rintro s' r ⟨⟩⟩
    | ok p =>
      obtain ⟨b, r2⟩ := p
      refine ⟨by rintro e ⟨⟩, ?_⟩
      rintro s' r ⟨⟩
      exact checkKeyword_sound hc
  have key : ∀ (s1 : KwState) (r1 : Option Res), (∀ r', r1 = some r' → ResSafe d x r' ∧ ∀ e, r' ≠ .imm (.longSymbol e)) →
      let a := (if s1.maybeNan = true then do
        let r ← checkKeyword v .nan s1.isField s1.index x c
        return ({ s1 with maybeNan := r.1 }, r.2)
      else if s1.maybeTrue = true then do
        let r ← checkKeyword v .true_ s1.isField s1.index x c
        return ({ s1 with maybeTrue := r.1 }, r.2)
      else if s1.maybeFalse = true then do
        let r ← checkKeyword v .false_ s1.isField s1.index x c
        return ({ s1 with maybeFalse := r.1 }, r.2)
      else return (s1, r1) : Except PyErr (KwState × Option Res))
      (∀ e, a = .error e → Raised e) ∧ ∀ s' r, a = .ok (s', some r) → ResSafe d x r ∧ ∀ e, r ≠ .imm (.longSymbol e) := by
    intro s1 r1 h1
    dsimp only
    split
    · exact one s1 .nan (fun b => { s1 with maybeNan := b })
    · split
      · exact one s1 .true_ (fun b => { s1 with maybeTrue := b })
      · split
        · exact one s1 .false_ (fun b => { s1 with maybeFalse := b })
        · refine ⟨by rintro e ⟨⟩, ?_⟩
          rintro s' r ⟨⟩
          exact h1 _ rfl
  unfold keywordChecks
  by_cases hn : s.maybeNull = true
  · cases hc : checkKeyword v .null s.isField s.index x c with
    | error e =>
      simp only [hn, if_true]
      exact ⟨by rintro e' ⟨⟩; exact checkKeyword_raised hc, by rintro s' r ⟨⟩⟩
    | ok p =>
      obtain ⟨b, r2⟩ := p
      simp only [hn, if_true]
      exact key { s with maybeNull := b } r2 (by rintro r' rfl; exact checkKeyword_sound hc)
  · simp only [hn, if_false]
    exact key s none (by rintro r' ⟨⟩)

theorem sound_notKeyword {f : Bool} {n : Nat} (h1 : x.value ≠ []) (h2 : x.isText = true → x.quoted = false) : Sound d n (notKeyword v f x c) := by
  unfold notKeyword
  split
  · exact sound_ok rest_setPending (by rintro e ⟨⟩)
  · split
    · exact sound_event
    · exact sound_go (sets_unquoted h2 h1)

theorem sound_keyword {s : KwState} {c' : Ch} (h : HSafe d x (.keyword s)) : Sound d c (onKeyword v s x c') := by
  unfold onKeyword
  have hk := keywordChecks_sound (d := d) (v := v) (x := x) (s := s) (c := c'.code)
  split
  · rename_i e he; exact hk.1 e he
  · rename_i s' tr he
    split
    · split
      · rename_i r; exact sound_ok (hk.2 _ _ he).1 (hk.2 _ _ he).2
      · exact sound_ok (r := .imm (.keyword _)) ⟨by simp, h.2⟩ (by rintro e ⟨⟩)
    · exact sound_notKeyword h.1 h.2

theorem sound_notInf {i n : Nat} (h : x.isText = false) : Sound d n (notInf v i x c) := by
  unfold notInf
  rw [setUnicode_text h]
  dsimp only
  split
  · exact raised_ion
  · split
    · split
      · exact sound_go (sets_operator fun _ => rfl)
      · exact sound_event
    · rename_i hi0
      have : Sets d (mkUnquoted v c { value := infSuffix.take i } false) := by
        refine sets_unquoted (by simp) ?_
        simp [infSuffix, hi0]
      simp only [Ctx.symbolEvent]
      split
      · rename_i e he; rw [he] at this; exact this
      · rename_i nx h' he
        rw [he] at this
        exact ⟨this, by rintro _ ⟨⟩, by rintro e ⟨⟩⟩

theorem sound_inf {b : Bool} {i n : Nat} {c' : Ch} (h : x.isText = false) : Sound d n (onInf v b i x c') := by
  unfold onInf
  dsimp only
  have h' : (x.setType (some .float)).isText = false := by simpa using h
  split
  · split
    · exact sound_ok (r := .imm (.inf _ _)) h' (by rintro e ⟨⟩)
    · exact sound_notInf h'
  · split
    · exact sound_event
    · exact sound_notInf h'

theorem symbolEnd_text {f : Bool} {t : Text} {n : Nat} : Sound d n (symbolEnd v c x f (.text t)) := by
  unfold symbolEnd
  split
  · exact sound_ok (r := .self) ⟨rfl, rfl, by rintro ⟨⟩, by rintro k ⟨⟩⟩ (by rintro e ⟨⟩)
  · exact sound_event

theorem symbolEnd_sym {f : Bool} {k : SymbolToken} {n : Nat} : Sound d n (symbolEnd v c x f (.sym k)) := by
  unfold symbolEnd
  split
  · exact sound_ok (r := .self) ⟨rfl, rfl, by rintro ⟨⟩, by rintro k ⟨⟩⟩ (by rintro e ⟨⟩)
  · exact sound_event

theorem symbolEnd_ivm {f : Bool} {k : SymbolToken} {n : Nat} (h : x.annotations = [] ∧ v.depth = 0) : Sound v.depth n (symbolEnd v c x f (.ivm k)) := by
  unfold symbolEnd
  split
  · exact sound_ok (r := .self) ⟨rfl, rfl, by rintro ⟨⟩, by rintro k ⟨⟩; exact h⟩ (by rintro e ⟨⟩)
  · simp only [Ctx.symbolEvent, if_pos h]
    split
    · rename_i he
      split at he
      · cases he
      · cases he; exact raised_ion
    · exact sound_event

theorem sound_unquoted {f : Bool} {p n : Nat} {c' : Ch} : Sound d n (onUnquoted v f p x c') := by
  unfold onUnquoted
  repeat' split
  all_goals first | exact raised_ion | exact symbolEnd_text | exact sound_ok trivial (by rintro e ⟨⟩)

theorem sound_dollar {s : DollarState} {n : Nat} {c' : Ch} (h : HSafe v.depth x (.dollar s)) : Sound v.depth n (onDollar v s x c') := by
  obtain ⟨h1, h2, h3, h4⟩ := h
  unfold onDollar
  dsimp only
  split
  · refine sound_ok (r := .imm (.dollar _)) ⟨h1, h2, fun hs hi => ?_, fun hi => ?_⟩ (by rintro e ⟨⟩)
    · simp only [Bool.and_eq_true] at hi
      exact h3 hs hi.1
    · simp only [Bool.and_eq_true] at hi
      exact h4 (hi.imp And.left id)
  · split
    · unfold dollarEnd
      split
      · exact symbolEnd_text
      · rename_i hl
        split
        · rename_i hs
          split
          · rename_i hi; exact absurd (h3 hs hi).1 hl
          · exact symbolEnd_sym
        · split
          · rename_i hc; exact symbolEnd_ivm (h4 (.inr hc))
          · exact symbolEnd_text
    · have hi : (ivmCheck s c'.code).2.1 = true → s.maybeIvm = true ∨ s.completeIvm = true := by
        intro h
        by_cases hm : s.maybeIvm = true
        · exact .inl hm
        · simp only [ivmCheck, hm, if_false] at h
          exact .inr h
      have hm : (ivmCheck s c'.code).1 = true → s.maybeIvm = true := by
        intro h
        by_cases hm : s.maybeIvm = true
        · exact hm
        · simp [ivmCheck, hm] at h
      split
      · rename_i hr
        refine sound_ok (r := .imm (.dollar _)) ⟨by simp, h2, fun hs _ => ?_, fun _ => h4 (.inl (hm hr))⟩ (by rintro e ⟨⟩)
        simp only [Bool.and_eq_true] at hs
        obtain ⟨_, h5⟩ := h3 hs.1 (hm hr)
        simp only [ivmCheck, hm hr, if_true, h5] at hr
        have : c'.code = 105 := by
          have := hr.symm
          simp [ivmPrefix] at this
          first | exact this | exact this.symm
        rw [this] at hs
        exact absurd hs.2 (by decide)
      · split
        · exact sound_go (sets_unquoted h2 h1)
        · refine sound_ok (r := .imm (.dollar _)) ⟨by simp, h2, ?_, ?_⟩ (by rintro e ⟨⟩)
          · intro _ hi'
            simp at hi'
          · intro hh
            exact h4 (hi (by simpa using hh))

theorem sound_short {f cl : Bool} {h' : H} {n : Nat} {c' : Ch} (hf : f = true → h' = .shortField ∧ HSafe d x h') (hn : f = false → h' = .shortString ∨ h' = .shortClob) :
    Sound d n (onShort v f cl h' x c') := by
  unfold onShort
  split
  · split
    · rename_i hf'
      obtain ⟨rfl, h1, h2, t, h3⟩ := hf hf'
      exact sound_ok (r := .self) (rest_pending h1 h2 h3) (by rintro e ⟨⟩)
    · split
      · exact sound_go sets_clobEnd
      · exact sound_event
  · split
    · exact raised_ion
    · cases f with
      | true =>
        obtain ⟨rfl, h1, h2, t, h3⟩ := hf rfl
        exact sound_ok (r := .imm .shortField) ⟨h1, h2, t ++ _, by simp only [Ctx.extend, if_true, h3]; rfl⟩ (by rintro e ⟨⟩)
      | false => rcases hn rfl with rfl | rfl <;> exact sound_ok (r := .imm _) trivial (by rintro e ⟨⟩)

theorem sound_quotedSymbol {f : Bool} {n : Nat} {c' : Ch} : Sound d n (onQuotedSymbol v f x c') := by
  unfold onQuotedSymbol
  repeat' split
  all_goals first | exact raised_ion | exact symbolEnd_text | exact sound_ok trivial (by rintro e ⟨⟩)

theorem sound_lobStart {q n : Nat} {c' : Ch} (h : HSafe d x (.lobStart q)) : Sound d n (onLobStart q x c') := by
  obtain ⟨h1, h2, h3⟩ := h
  unfold onLobStart
  split
  · split
    · exact raised_ion
    · exact sound_ok (r := .imm (.lobStart _)) ⟨h1, h2, h3⟩ (by rintro e ⟨⟩)
  · split
    · split
      · exact raised_ion
      · rw [setUnicode_text (by simpa using h2 (by omega))]
        exact sound_go (sets_short (fun _ => rfl) (by simp))
    · split
      · by_cases hq : q = 0
        · rw [if_pos hq, setUnicode_text (by simpa using h2 hq)]
          dsimp only
          rw [if_neg (by omega)]
          exact sound_ok (r := .imm (.lobStart _)) ⟨by simpa using h1, by simp, fun _ => rfl⟩ (by rintro e ⟨⟩)
        · rw [if_neg hq]
          dsimp only
          split
          · exact sound_go (sets_long h3 h1 (by simp))
          · exact sound_ok (r := .imm (.lobStart _)) ⟨h1, by simp, h3⟩ (by rintro e ⟨⟩)
      · exact sound_go sets_blobEnd

theorem sound_blobEnd {p k m n : Nat} {c' : Ch} : Sound d n (onBlobEnd v p k m x c') := by
  unfold onBlobEnd lobEvent
  repeat' split
  all_goals first | exact raised_ion | exact sound_event | exact sound_ok trivial (by rintro e ⟨⟩) | skip
  rename_i h
  exact blobAction_raised h

theorem sound_clobEnd {p n : Nat} {c' : Ch} : Sound d n (onClobEnd v p x c') := by
  unfold onClobEnd lobEvent
  repeat' split
  all_goals first | exact raised_ion | exact sound_event | exact sound_ok trivial (by rintro e ⟨⟩)

theorem commentStart_raised {c' : Ch} {e : PyErr} (h : commentStart x c' = .error e) : Raised e := by
  unfold commentStart at h
  repeat' split at h
  all_goals cases h
  · exact raised_type
  · exact raised_ion

theorem commentStart_ctx {c' : Ch} {y : Ctx} {b : Bool} (h : commentStart x c' = .ok (y, b)) : ∃ l, y = { x with lineComment := l } := by
  unfold commentStart at h
  repeat' split at h
  all_goals cases h
  all_goals exact ⟨_, rfl⟩

/-- A handler that is safe does something safe. -/
theorem handle_safe (F : FloatText) {h : H} {c' : Ch} (hs : HSafe v.depth x h) (hl : ∀ e, h = .longSymbol e → ¬ (c'.code = 39 ∧ ¬ c'.esc))
    (hn : ∀ f cl n first, h = .long f cl n false first → c'.esc = false) : Sound v.depth c'.code (handle F v x h c') := by
  cases h with
  | negStart =>
    obtain ⟨h1, h2, h3⟩ := hs
    simp only [handle]
    split
    · rename_i h0; exact sound_go (sets_zero (.inr h1) h0)
    · split
      · exact sound_go (sets_numeric (by simp))
      · split
        · rename_i hu; exact checkUnread_error hu
        · rename_i u hu
          have hu := checkUnread_ok hu
          exact ⟨h2, by rintro _ ⟨⟩; exact hu, by rintro e ⟨⟩⟩
  | zeroStart =>
    simp only [handle]
    repeat' split
    · exact sound_endNumber
    · exact sound_go (sets_numeric fun _ => hs)
    · exact sound_go (sets_numeric fun _ => hs)
    · refine sound_go (sets_tsZero ?_)
      rcases hs.1 with h | h <;> simp [h]
    · exact sound_go sets_whole
  | number =>
    simp only [handle]
    repeat' split
    all_goals first | exact sound_endNumber | exact sound_ok trivial (by rintro e ⟨⟩) | exact sound_go sets_timestamp | exact sound_go sets_whole | exact sound_go (sets_numeric (by simp))
  | slashEnd e =>
    simp only [handle]
    split
    · rename_i he; exact commentStart_raised he
    · rename_i y b he
      obtain ⟨l, rfl⟩ := commentStart_ctx he
      exact ⟨⟨⟨rfl, rfl, fun _ => rfl, by rintro k ⟨⟩⟩, by rintro e ⟨⟩⟩, by rintro _ ⟨⟩, by rintro e ⟨⟩⟩
  | numeric k p => exact sound_numeric
  | tsZero =>
    simp only [handle]
    repeat' split
    all_goals first | exact raised_ion | exact sound_ok trivial (by rintro e ⟨⟩) | exact sound_go sets_timestamp
  | ts s => exact sound_ts
  | comment ret =>
    simp only [handle]
    split
    · rename_i he; exact commentStart_raised he
    · rename_i y b he
      obtain ⟨l, rfl⟩ := commentStart_ctx he
      refine sound_ok (r := .imm (.commentBody _ _ _)) ?_ (by rintro e ⟨⟩)
      cases ret with
      | none => exact hs
      | some h' => exact ⟨hsafe_flags l x.selfDelim h' hs.1, hs.2⟩
  | commentBody ret b p => exact sound_comment hs
  | sexpSlash ret e => exact sound_sexpSlash hs
  | long f cl n b first => exact (sound_long hs fun hb => by subst hb; exact hn f cl n first rfl).1
  | longSymbol e =>
    simp only [handle]
    have := sets_quotedSymbol (d := v.depth) (f := false) (c := c') (x := {}) (by rintro ⟨⟩) (by rintro ⟨⟩) (hl e rfl)
    split
    · rename_i he; rw [he] at this; exact this
    · rename_i he; rw [he] at this; exact ⟨this, by rintro _ ⟨⟩, by rintro e ⟨⟩⟩
  | typedNull n => exact sound_typedNull
  | operatorStart o =>
    simp only [handle]
    split
    · rename_i hu; exact checkUnread_error hu
    · rename_i u hu
      have hu := checkUnread_ok hu
      exact sound_andGo (sets_operator fun ht => by rw [hs] at ht; cases ht) (by rintro _ ⟨⟩; exact hu)
  | operatorAfter o =>
    simp only [handle]
    split
    · rename_i hu; exact checkUnread_error hu
    · rename_i u hu
      have hu := checkUnread_ok hu
      rw [if_neg hs]
      exact sound_thenOperator hu
  | keyword s => exact sound_keyword hs
  | inf b i => exact sound_inf hs
  | operator =>
    simp only [handle]
    split
    · exact sound_ok trivial (by rintro e ⟨⟩)
    · exact sound_event
  | unquoted f p => exact sound_unquoted
  | dollar s => exact sound_dollar hs
  | shortString => exact sound_short (by rintro ⟨⟩) (fun _ => .inl rfl)
  | shortField => exact sound_short (fun _ => ⟨rfl, hs⟩) (by rintro ⟨⟩)
  | shortClob => exact sound_short (by rintro ⟨⟩) (fun _ => .inr rfl)
  | quotedSymbol f => exact sound_quotedSymbol
  | quote1 f =>
    obtain ⟨h1, h2, h3⟩ := hs
    simp only [handle]
    split
    · exact sound_ok (r := .imm (.quote2 f)) ⟨by simp [h1], by simp [h2], by simp⟩ (by rintro e ⟨⟩)
    · rename_i hc
      rw [setUnicode_text h2]
      exact sound_go (sets_quotedSymbol (fun _ => rfl) (by simp [h3]) hc)
  | quote2 f =>
    obtain ⟨h1, h2, h3⟩ := hs
    simp only [handle]
    rw [setUnicode_text h2]
    split
    · exact sound_go (sets_long (fun _ => rfl) h1 (fun _ => by simp [h3]))
    · exact sound_ok (r := .self) rest_setPending (by rintro e ⟨⟩)
  | structOrLob =>
    obtain ⟨h1, h2⟩ := hs
    simp only [handle]
    split
    · exact sound_ok (r := .imm (.lobStart 0)) ⟨h1, fun _ => h2, by simp [h2]⟩ (by rintro e ⟨⟩)
    · split
      · rename_i hu; exact checkUnread_error hu
      · rename_i u hu
        have hu := checkUnread_ok hu
        exact ⟨trivial, by rintro _ ⟨⟩; exact hu, by rintro e ⟨⟩⟩
  | lobStart n => exact sound_lobStart hs
  | blobEnd p d n => exact sound_blobEnd
  | clobEnd p => exact sound_clobEnd
  | containerStart ty => exact sound_event

end Ion.TextReader.Calm

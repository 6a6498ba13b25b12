import Verif.TextWriting
set_option linter.unusedSimpArgs false
/-!
# The text writer writes ASCII

Everything the text writer writes is printable ASCII, but for the newlines and indents of pretty printing.
-/
namespace Ion.TextWriter
open Ion Ion.TextSpec
open Ion.TextReader (decFixed_digits)

/-- Printable ASCII characters. -/
def Printable (l : List Nat) : Prop := ∀ c ∈ l, 32 ≤ c ∧ c ≤ 126

theorem Printable.append {a b : List Nat} (ha : Printable a) (hb : Printable b) : Printable (a ++ b) := by
  intro c hc
  rcases List.mem_append.1 hc with h | h
  · exact ha c h
  · exact hb c h

theorem Printable.cons {c : Nat} {l : List Nat} (hc : 32 ≤ c ∧ c ≤ 126) (hl : Printable l) : Printable (c :: l) := by
  intro d hd
  rcases List.mem_cons.1 hd with rfl | hd
  · exact hc
  · exact hl d hd

theorem Printable.nil : Printable [] := by simp [Printable]

theorem Printable.of_digits {l : List Nat} (h : Digits l) : Printable l := by
  intro c hc
  have := h c hc
  simp only [Digit] at this
  omega

theorem print_dec (w n : Nat) : Printable (decFixed w n) := .of_digits (decFixed_digits w n).1
theorem print_nat (n : Nat) : Printable (natDigits n) := .of_digits (natDigits_spec n).1

theorem print_of_all {l : List Nat} (h : l.all (fun c => decide (32 ≤ c ∧ c ≤ 126)) = true) : Printable l := by
  intro c hc
  have := List.all_eq_true.1 h c hc
  simpa using this

theorem print_null (ty : IonType) : Printable (nullName ty) := by cases ty <;> exact print_of_all (by decide)

theorem print_int (i : Int) : Printable (intDigits i) := by
  unfold intDigits
  split
  · exact .cons (by omega) (print_nat _)
  · exact print_nat _

theorem print_uint {l : List Nat} (h : IsUInt l) : Printable l := .of_digits (TextReader.uint_digits h).2

theorem print_coef {co all : List Nat} {n : Nat} (h : IsCoefficient co all n) : Printable co := by
  cases h with
  | whole _ hd => exact print_uint hd
  | point ds fs hd hf => exact (print_uint hd).append (.cons (by omega) (.of_digits hf))

theorem print_exponent {ex : List Nat} {i : Int} (h : IsExponent ex i) : Printable ex := by
  cases h with
  | none ds _ hd => exact .of_digits hd
  | plus ds _ hd => exact .cons (by omega) (.of_digits hd)
  | minus ds _ hd => exact .cons (by omega) (.of_digits hd)

theorem print_sign (neg : Bool) : Printable (signText neg) := by cases neg <;> exact print_of_all (by decide)

theorem print_float {F : FloatText} (hF : Faithful F) (bits : UInt64) : Printable (floatStr F bits) := by
  unfold floatStr
  split
  · exact print_of_all (by decide)
  · split
    · split <;> exact print_of_all (by decide)
    · next hn hi =>
      have hf : Finite bits := by
        simp only [isNan, isInf, Bool.and_eq_true, decide_eq_true_eq] at hn hi
        simp only [Finite]
        omega
      have hr : Printable (F.repr bits) := by
        obtain ⟨neg, co, all, n, hco, ⟨e, ex, i, he, hex, hr, hp⟩ | ⟨hr, hp⟩⟩ := hF.numeral bits hf
        · rw [hr]
          exact ((print_sign neg).append (print_coef hco)).append (.cons (by omega) (print_exponent hex))
        · rw [hr]
          exact (print_sign neg).append (print_coef hco)
      simp only
      split
      · exact hr
      · exact hr.append (print_of_all (by decide))

theorem print_spelled {t l : List Nat} (h : Spelled t l) (hl : Printable l) : Printable t := by
  induction h with
  | nil => exact hl
  | cons c t u _ ih => exact .cons (hl c (by simp)) (ih fun d hd => hl d (by simp [hd]))
  | under d e v w t u _ _ _ ih => exact .cons (hl d (by simp)) (.cons (by omega) (ih fun d hd => hl d (by simp [hd])))

theorem print_decimal (d : Dec) : Printable (decimalStr d) := by
  have h := decimal_text ⟨fun _ => [], fun _ => .ok 0⟩ d
  generalize decimalStr d = l at h
  generalize hx : (Spec.Scalar.decimal d : Spec.Scalar TSym) = x at h
  cases h <;> first | cases hx | skip
  case decimal neg t ds fs hd hf hs => exact (print_sign neg).append (print_spelled hs ((print_uint hd).append (.cons (by omega) (.of_digits hf))))
  case decimalExp neg t co all n e ex i hco hs he hex => exact ((print_sign neg).append (print_spelled hs (print_coef hco))).append (.cons (by omega) (print_exponent hex))

theorem print_offset (tz : Option Int) : Printable (utcOffset tz) := by
  unfold utcOffset
  split
  · exact print_of_all (by decide)
  · split
    · exact print_of_all (by decide)
    · refine .append (.append (.append (.append (.append ?_ (print_dec _ _)) (print_of_all (by decide))) (print_dec _ _)) ?_) ?_
      · split <;> exact print_of_all (by decide)
      · split
        · exact print_dec _ _
        · exact .nil
      · split
        · exact .cons (by omega) (print_dec _ _)
        · exact .nil

theorem print_fraction (f : Dec) : Printable (fractionStr f) := by
  unfold fractionStr
  split
  · exact .nil
  · exact .cons (by omega) ((Printable.of_digits (digits_zeros _)).append (print_nat _))

theorem print_datetime {v : Scalars.TimeVal} {bs : List Nat} (h : datetimeStr v = .ok bs) : Printable bs := by
  have key : ∀ (p : Precision) (frac : List Nat) (dt : DateTime), Printable frac → Printable (
      if !p.includesMonth then decFixed 4 dt.year ++ [84]
      else if !p.includesDay then decFixed 4 dt.year ++ 45 :: decFixed 2 dt.month ++ [84]
      else if !p.includesMinute then decFixed 4 dt.year ++ 45 :: decFixed 2 dt.month ++ 45 :: decFixed 2 dt.day ++ [84]
      else if !p.includesSecond then decFixed 4 dt.year ++ 45 :: decFixed 2 dt.month ++ 45 :: decFixed 2 dt.day ++ [84] ++ decFixed 2 dt.hour ++ 58 :: decFixed 2 dt.minute ++ utcOffset dt.tz
      else decFixed 4 dt.year ++ 45 :: decFixed 2 dt.month ++ 45 :: decFixed 2 dt.day ++ [84] ++ decFixed 2 dt.hour ++ 58 :: decFixed 2 dt.minute ++ 58 :: decFixed 2 dt.second ++ frac ++ utcOffset dt.tz) := by
    intro p frac dt hf
    have hT : Printable [84] := print_of_all (by decide)
    have h1 := (print_dec 4 dt.year).append (Printable.cons (c := 45) (by omega) (print_dec 2 dt.month))
    have h2 := (h1.append (Printable.cons (c := 45) (by omega) (print_dec 2 dt.day))).append hT
    have h3 := (h2.append (print_dec 2 dt.hour)).append (Printable.cons (c := 58) (by omega) (print_dec 2 dt.minute))
    split
    · exact (print_dec 4 _).append hT
    split
    · exact h1.append hT
    split
    · exact h2
    split
    · exact h3.append (print_offset _)
    · exact ((h3.append (.cons (by omega) (print_dec _ _))).append hf).append (print_offset _)
  unfold datetimeStr at h
  simp only at h
  split at h
  · split at h
    · cases h
    · simp only [Except.ok.injEq] at h
      subst h
      exact key _ _ _ (print_fraction _)
  · simp only [Except.ok.injEq] at h
    subst h
    exact key _ _ _ (.cons (by omega) (print_dec _ _))

theorem print_hex : ∀ (w n : Nat), Printable (hexFixed w n)
  | 0, _ => .nil
  | w + 1, n => by
    refine (print_hex w (n / 16)).append ?_
    intro c hc
    simp only [List.mem_singleton] at hc
    subst hc
    have : n % 16 < 16 := Nat.mod_lt _ (by omega)
    unfold hexDigit
    split <;> omega

theorem print_char (q : Option Nat) (hq : ∀ c, q = some c → 32 ≤ c ∧ c ≤ 126) (c : Nat) : Printable (bytesChar q c) := by
  unfold bytesChar
  split
  · next h => exact .cons (by omega) (.cons (hq c h.symm) .nil)
  split
  · exact print_of_all (by decide)
  split
  · next h =>
    simp only [isPrintable, Bool.and_eq_true, decide_eq_true_eq] at h
    exact .cons (by omega) .nil
  · unfold escape
    repeat' split
    · exact print_of_all (by decide)
    · exact print_of_all (by decide)
    · exact print_of_all (by decide)
    · exact (print_of_all (by decide)).append (print_hex _ _)
    · exact (print_of_all (by decide)).append (print_hex _ _)
    · exact (print_of_all (by decide)).append (print_hex _ _)

theorem print_text {cps : List Nat} {q : Option Nat} (hq : ∀ c, q = some c → 32 ≤ c ∧ c ≤ 126) {pre suf : List Nat} (hp : Printable pre) (hs : Printable suf) : Printable (bytesText cps q pre suf) := by
  have h1 : Printable q.toList := by
    intro c hc
    exact hq c (by simpa using hc)
  refine (((hp.append h1).append ?_).append h1).append hs
  intro c hc
  obtain ⟨d, -, hc⟩ := List.mem_flatMap.1 hc
  exact print_char q hq d c hc

theorem print_textOrError {t : Text} {q : Option Nat} (hq : ∀ c, q = some c → 32 ≤ c ∧ c ≤ 126) {suf bs : List Nat} (hs : Printable suf) (h : textOrError t q suf = .ok bs) : Printable bs := by
  unfold textOrError at h
  split at h
  · cases h
  · simp only [Except.ok.injEq] at h
    subst h
    exact print_text hq .nil hs

theorem print_symbol {t : Text} {suf bs : List Nat} (hs : Printable suf) (h : symbolText t suf = .ok bs) : Printable bs := by
  refine print_textOrError ?_ hs h
  intro c hc
  split at hc
  · simp only [Option.some.injEq] at hc; omega
  · cases hc

theorem print_token {k : SymbolToken} {suf bs : List Nat} (hs : Printable suf) (h : serializeToken k suf = .ok bs) : Printable bs := by
  unfold serializeToken at h
  split at h
  · exact print_symbol hs h
  · split at h
    · simp only [Except.ok.injEq] at h
      subst h
      exact (Printable.cons (by omega) (print_nat _)).append hs
    · cases h

theorem print_symArg {a : SymArg} {suf bs : List Nat} (hs : Printable suf) (h : serializeSymArg a suf = .ok bs) : Printable bs := by
  cases a with
  | text t => exact print_symbol hs h
  | tok k => exact print_token hs h

theorem print_b64 (b : Bytes) : Printable (b64encode (byteNums b)) := by
  rw [Base64.encode_eq _ (fun c hc => by have := (byteNums_unicode b).2 c hc; omega)]
  obtain ⟨ds, m, h1, h2, -⟩ := TextReader.encode_form (byteNums b)
  rw [h1]
  refine Printable.append ?_ ?_
  · intro c hc
    have := h2 c hc
    simp only [TextReader.isB64, TextReader.isLetter, TextReader.isDigit, Bool.or_eq_true, Bool.and_eq_true, decide_eq_true_eq] at this
    omega
  · intro c hc
    rw [List.eq_of_mem_replicate hc]; omega

theorem print_value {F : FloatText} (hF : Faithful F) {ty : IonType} {v : PyVal} {bs : List Nat} (h : serializeValue F ty v = .ok bs) : Printable bs := by
  have h34 : ∀ c, some 34 = some c → 32 ≤ c ∧ c ≤ 126 := by intro c hc; simp only [Option.some.injEq] at hc; omega
  cases ty <;> cases v <;> simp only [serializeValue, serializeClob, Except.ok.injEq, reduceCtorEq] at h <;> first
    | (subst h; first
        | exact print_int _
        | exact print_float hF _
        | exact print_decimal _
        | (unfold serializeBool; split <;> exact print_of_all (by decide))
        | (split <;> exact print_of_all (by decide))
        | exact print_text h34 (print_of_all (by decide)) (print_of_all (by decide))
        | exact ((print_of_all (by decide)).append (print_b64 _)).append (print_of_all (by decide)))
    | exact print_datetime h
    | exact print_token .nil h
    | exact print_symbol .nil h
    | exact print_textOrError h34 .nil h
    | skip
  case clob.str t =>
    cases t with
    | nil =>
      simp only [Except.ok.injEq] at h
      subst h
      exact print_text h34 (print_of_all (by decide)) (print_of_all (by decide))
    | cons c t => cases h

theorem print_scalar {F : FloatText} (hF : Faithful F) {e : IonEvent} {bs : List Nat} (h : serializeScalar F e = .ok bs) : Printable bs := by
  unfold serializeScalar at h
  split at h
  · cases h
  · split at h
    · cases h
    · simp only [Except.ok.injEq] at h; subst h; exact print_null _
    · cases h
    · exact print_value hF h

theorem print_flatten {ls : List (List Nat)} (h : ∀ l ∈ ls, Printable l) : Printable ls.flatten := by
  intro c hc
  obtain ⟨l, hl, hc⟩ := List.mem_flatten.1 hc
  exact h l hl c hc

theorem print_annotations : ∀ (as : List SymArg), ∀ l ∈ (annotationChunks as).1, Printable l := by
  intro as
  induction as with
  | nil => intro l hl; simp [annotationChunks] at hl
  | cons a as ih =>
    intro l hl
    unfold annotationChunks at hl
    split at hl
    · simp at hl
    · next b hb =>
      simp only [List.mem_cons] at hl
      rcases hl with rfl | hl
      · exact print_symArg (print_of_all (by decide)) hb
      · exact ih l hl

theorem print_field {pretty : Bool} {s : State} {e : IonEvent} {fc : List (List Nat)} (h : fieldChunks pretty s e = .ok fc) : ∀ l ∈ fc, Printable l := by
  unfold fieldChunks at h
  split at h
  · split at h
    · split at h
      · cases h
      · split at h
        · cases h
        · next b hb =>
          simp only [Except.ok.injEq] at h
          subst h
          have hb' := print_symArg (print_of_all (by decide)) hb
          intro l hl
          split at hl
          · simp only [List.mem_cons, List.not_mem_nil, or_false] at hl
            rcases hl with rfl | rfl
            · exact hb'
            · exact print_of_all (by decide)
          · simp only [List.mem_cons, List.not_mem_nil, or_false] at hl
            subst hl
            exact hb'
    · simp only [Except.ok.injEq] at h; subst h; simp
  · simp only [Except.ok.injEq] at h; subst h; simp

theorem print_delimiter (p : Bool) (s : State) (e : IonEvent) : ∀ l ∈ delimiterChunks p s e, Printable l := by
  intro l hl
  have key : ∀ d : List Nat, Printable d → l ∈ (if d.isEmpty then [] else [d]) → Printable l := by
    intro d hd h
    by_cases hz : d.isEmpty = true
    · rw [if_pos hz] at h; cases h
    · rw [if_neg hz] at h
      simp only [List.mem_singleton] at h
      exact h ▸ hd
  unfold delimiterChunks at hl
  split at hl
  · refine key _ ?_ hl
    split
    · split <;> exact print_of_all (by decide)
    · unfold delimiter
      split
      · split <;> exact print_of_all (by decide)
      · exact print_of_all (by decide)
  · cases hl

theorem print_finish {F : FloatText} (hF : Faithful F) {s s' : State} {e : IonEvent} {w : WriteEventType} {d : List Nat} (h : finish F s e = .ok ((w, d), s')) : Printable d := by
  unfold finish at h
  split at h
  · split at h
    · cases h
    · split at h
      · simp only [Except.ok.injEq, Prod.mk.injEq] at h
        rw [← h.1.2]
        unfold openMark
        split <;> exact print_of_all (by decide)
      · cases h
  · split at h
    · simp only [Except.ok.injEq, Prod.mk.injEq] at h; rw [← h.1.2]; exact .nil
    · cases h
  · split at h
    · simp only [Except.ok.injEq, Prod.mk.injEq] at h; rw [← h.1.2]; exact print_of_all (by decide)
    · cases h
  · split at h
    · cases h
    · next b hb =>
      simp only [Except.ok.injEq, Prod.mk.injEq] at h
      rw [← h.1.2]
      exact print_scalar hF hb
  · split at h
    · cases h
    · simp only [Except.ok.injEq, Prod.mk.injEq] at h
      rw [← h.1.2]
      unfold closeMark
      split <;> exact print_of_all (by decide)
  · cases h

/-- The characters of a text written with an indent: printable ASCII, and if there is an indent, newlines and the
characters of the indent. -/
def Layout (ind : Option (List Nat)) (c : Nat) : Prop := (32 ≤ c ∧ c ≤ 126) ∨ ∃ t, ind = some t ∧ (c = 10 ∨ c ∈ t)

theorem layout_before (ind : Option (List Nat)) (s : State) (e : IonEvent) :
    ∀ l ∈ delimiterChunks ind.isSome s e ++ indentChunks ind s e, ∀ c ∈ l, Layout ind c := by
  intro l hl
  rcases List.mem_append.1 hl with hl | hl
  · exact fun c hc => .inl (print_delimiter _ s e l hl c hc)
  · cases ind with
    | none => cases hl
    | some t =>
      unfold indentChunks at hl
      simp only at hl
      generalize s.frames.length - (if e.eventType = .containerEnd then 1 else 0) = m at hl
      split at hl
      · rcases List.mem_cons.1 hl with rfl | hl
        · intro c hc
          exact .inr ⟨t, rfl, .inl (List.mem_singleton.1 hc)⟩
        · split at hl
          · simp only [List.mem_singleton] at hl
            subst hl
            intro c hc
            obtain ⟨l, hl, hc⟩ := List.mem_flatten.1 hc
            rw [List.eq_of_mem_replicate hl] at hc
            exact .inr ⟨t, rfl, .inr hc⟩
          · cases hl
      · cases hl

/-- Everything is printable ASCII, but for the newlines and indents. -/
theorem layout_run {F : FloatText} (hF : Faithful F) {ind : Option (List Nat)} : ∀ (evs : List IonEvent) (s : State), ∀ c ∈ (runText F ind s evs).1, Layout ind c := by
  intro evs
  induction evs with
  | nil => intro s c hc; cases hc
  | cons e evs ih =>
    intro s
    have hstep : (∀ l ∈ (step F ind s e).1, ∀ c ∈ l, Layout ind c) ∧ ∀ w d s', (step F ind s e).2 = .ok ((w, d), s') → ∀ c ∈ d, Layout ind c := by
      unfold step
      simp only
      split
      · exact ⟨layout_before ind s e, fun _ _ _ h => by cases h⟩
      · next fc hfc =>
        have hann : ∀ l ∈ (if e.eventType.beginsValue = true then annotationChunks e.annotations else ([], none)).1, Printable l := by
          split
          · exact print_annotations _
          · simp
        have hall : ∀ l ∈ delimiterChunks ind.isSome s e ++ indentChunks ind s e ++ fc ++ (if e.eventType.beginsValue = true then annotationChunks e.annotations else ([], none)).1, ∀ c ∈ l, Layout ind c := by
          intro l hl
          rcases List.mem_append.1 hl with hl | hl
          · rcases List.mem_append.1 hl with hl | hl
            · exact layout_before ind s e l hl
            · exact fun c hc => .inl (print_field hfc l hl c hc)
          · exact fun c hc => .inl (hann l hl c hc)
        split
        · exact ⟨hall, fun _ _ _ h => by cases h⟩
        · exact ⟨hall, fun w d s' h c hc => .inl (print_finish hF h c hc)⟩
    have hflat : ∀ c ∈ (step F ind s e).1.flatten, Layout ind c := by
      intro c hc
      obtain ⟨l, hl, hc⟩ := List.mem_flatten.1 hc
      exact hstep.1 l hl c hc
    unfold runText
    split
    · next cs err h =>
      rw [h] at hflat
      exact hflat
    · next cs w d s' h =>
      rw [h] at hflat hstep
      intro c hc
      rcases List.mem_append.1 hc with hc | hc
      · rcases List.mem_append.1 hc with hc | hc
        · exact hflat c hc
        · exact hstep.2 _ _ _ rfl c hc
      · exact ih s' c hc

/-! ## ASCII -/

/-- ASCII characters. -/
def Ascii (l : List Nat) : Prop := ∀ c ∈ l, c < 128

theorem Ascii.append {a b : List Nat} (ha : Ascii a) (hb : Ascii b) : Ascii (a ++ b) := by
  intro c hc
  rcases List.mem_append.1 hc with h | h
  · exact ha c h
  · exact hb c h

theorem Ascii.cons {c : Nat} {l : List Nat} (hc : c < 128) (hl : Ascii l) : Ascii (c :: l) := by
  intro d hd
  rcases List.mem_cons.1 hd with rfl | hd
  · exact hc
  · exact hl d hd

theorem Ascii.nil : Ascii [] := by simp [Ascii]

theorem Ascii.of_digits {l : List Nat} (h : Digits l) : Ascii l := by
  intro c hc
  have := h c hc
  simp only [Digit] at this
  omega

theorem ascii_of_all {l : List Nat} (h : l.all (· < 128) = true) : Ascii l := by
  intro c hc
  have := List.all_eq_true.1 h c hc
  simpa using this

theorem Printable.ascii {l : List Nat} (h : Printable l) : Ascii l := fun c hc => by have := h c hc; omega

theorem ascii_null (ty : IonType) : Ascii (nullName ty) := (print_null ty).ascii
theorem ascii_int (i : Int) : Ascii (intDigits i) := (print_int i).ascii
theorem ascii_text {cps : List Nat} {q : Option Nat} (hq : ∀ c, q = some c → 32 ≤ c ∧ c ≤ 126) {pre suf : List Nat} (hp : Printable pre) (hs : Printable suf) : Ascii (bytesText cps q pre suf) :=
  (print_text hq hp hs).ascii
theorem ascii_symbol {t : Text} {suf bs : List Nat} (hs : Printable suf) (h : symbolText t suf = .ok bs) : Ascii bs := (print_symbol hs h).ascii
theorem ascii_b64 (b : Bytes) : Ascii (b64encode (byteNums b)) := (print_b64 b).ascii

/-- Everything is ASCII. -/
theorem ascii_run {F : FloatText} (hF : Faithful F) {ind : Option (List Nat)} (hi : ∀ t, ind = some t → Ascii t) (evs : List IonEvent) (s : State) :
    Ascii (runText F ind s evs).1 := by
  intro c hc
  rcases layout_run hF evs s c hc with h | ⟨t, ht, rfl | h⟩
  · omega
  · omega
  · exact hi t ht c h
end Ion.TextWriter

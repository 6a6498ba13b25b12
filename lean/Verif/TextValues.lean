import Verif.TextOperators
set_option linter.unusedSimpArgs false
/-!
# Values and documents, as the text reader reads them

Every text of the grammar of `TextSpec.lean` is read as the events of the values it denotes.
-/
namespace Ion.TextReader
open Ion
variable [Fate]

section
variable {F : FloatText} {P : Loc} {fld : Bool} {r g : List Nat} {es : List IonEvent} {cm : Bool} {f : Option SymbolToken} {as : List SymbolToken}

omit [Fate] in
theorem isB64_digit {n : Nat} (h : n < 64) : isB64 (Base64.digit n) = true := by
  have : ∀ n < 64, isB64 (Base64.digit n) = true := by decide +kernel
  exact this n h

omit [Fate] in
theorem encode_form : ∀ (l : List Nat), ∃ ds m, Base64.encode l = ds ++ List.replicate m 61 ∧ (∀ c ∈ ds, isB64 c = true) ∧ m ≤ 3 ∧ (ds.length + m) % 4 = 0 := by
  intro l
  fun_induction Base64.encode l with
  | case1 => exact ⟨[], 0, rfl, by simp, by simp, rfl⟩
  | case2 a =>
    refine ⟨(Base64.group a 0 0).take 2, 2, rfl, ?_, by simp, by simp [Base64.group]⟩
    intro c hc
    simp only [Base64.group, List.take, List.mem_cons, List.not_mem_nil, or_false] at hc
    rcases hc with rfl | rfl <;> exact isB64_digit (Nat.mod_lt _ (by decide))
  | case3 a b =>
    refine ⟨(Base64.group a b 0).take 3, 1, rfl, ?_, by simp, by simp [Base64.group]⟩
    intro c hc
    simp only [Base64.group, List.take, List.mem_cons, List.not_mem_nil, or_false] at hc
    rcases hc with rfl | rfl | rfl <;> exact isB64_digit (Nat.mod_lt _ (by decide))
  | case4 a b c rest ih =>
    obtain ⟨ds, m, h1, h2, h3, h4⟩ := ih
    refine ⟨Base64.group a b c ++ ds, m, by rw [h1, List.append_assoc], ?_, h3, ?_⟩
    · intro d hd
      rcases List.mem_append.1 hd with hd | hd
      · simp only [Base64.group, List.mem_cons, List.not_mem_nil, or_false] at hd
        rcases hd with rfl | rfl | rfl | rfl <;> exact isB64_digit (Nat.mod_lt _ (by decide))
      · exact h2 d hd
    · simp only [Base64.group, List.length_append, List.length_cons, List.length_nil]
      omega

omit [Fate] in
theorem blank_ws {w : List Nat} (h : TextSpec.IsBlank w) : ∀ c ∈ w, isWs c = true := fun c hc => isWs_space (h c hc)

/-- What may follow the text `bs` of the value `n`. -/
structure EndsAt (P : Loc) (n : Spec.Node TextSpec.TSym) (bs g r : List Nat) : Prop where
  follow : Follow P g r
  noColon : ∀ r', r ≠ 58 :: r'
  ender : TextSpec.Closed bs n ∨ ((g ++ r).headD EOF ∈ enders ∧ (g = [] → r.headD 0 ≠ 47)) ∨ (P.ty = some .sexp ∧ g = [] ∧ TextSpec.IsJoined n bs r)
  empty : TextSpec.IsEmptySymbol n → [39] <:+ bs → TextSpec.IsBlank g ∧ (g ++ r).headD EOF ≠ 39 ∧ r.headD 0 ≠ 47
  long : TextSpec.IsLongString bs n → r.headD EOF ≠ 39
  operator : ∀ t, TextSpec.OperatorOf n bs t → isOp ((g ++ r).headD EOF) = false ∧ (t = [43] ∨ t = [45] → (g ++ r).headD EOF ≠ 105) ∧ (t = [45] → isDigit ((g ++ r).headD EOF) = false)

omit [Fate] in
theorem isChars_nil {q : Nat} {clob : Bool} {t : Text} {bs : List Nat} (h : TextSpec.IsChars q clob bs t) : bs = [] → t = [] := by
  cases h with
  | nil => exact fun _ => rfl
  | cons b rest c t hc _ =>
    intro h0
    rw [List.append_eq_nil_iff] at h0
    cases hc <;> simp at h0
  | continued nl rest t _ _ => intro h0; cases h0

omit [Fate] in
theorem isSym_empty {s : List Nat} {a : TextSpec.TSym} (h : TextSpec.IsSym s a) (h0 : s = [39, 39]) : a = .text [] := by
  cases h with
  | ident _ h1 => subst h0; simp [TextSpec.IsIdent, TextSpec.IdentStart] at h1
  | sid ds => simp at h0
  | quoted bs t h1 =>
    have : bs = [] := by
      simp only [List.cons.injEq, true_and] at h0
      cases bs with
      | nil => rfl
      | cons b bs => simp at h0
    rw [isChars_nil h1 this]

omit [Fate] in
theorem isSym_ne {s : List Nat} {a : TextSpec.TSym} (h : TextSpec.IsSym s a) : s ≠ [] := by
  rintro rfl
  cases h with
  | ident _ h1 => exact h1

omit [Fate] in
theorem suffix_of_append {pre bs : List Nat} {c : Nat} (hne : bs ≠ []) (h : [c] <:+ pre ++ bs) : [c] <:+ bs := by
  obtain ⟨l, hl⟩ := h
  rcases List.eq_nil_or_concat bs with rfl | ⟨m, d, rfl⟩
  · exact absurd rfl hne
  · rw [List.concat_eq_append, ← List.append_assoc] at hl
    have := (List.append_inj' hl rfl).2
    rw [List.concat_eq_append, this]
    exact List.suffix_append m [d]

omit [Fate] in
theorem isOp_iff {c : Nat} : isOp c = true ↔ TextSpec.OpChar c := by
  constructor
  · intro h
    have key : ∀ c < 128, isOp c = true → c ∈ asc ['!','#','%','&','*','+','-','.','/',';','<','=','>','?','@','^','`','|','~'] := by decide +kernel
    refine key c ?_ h
    simp only [isOp, Bool.or_eq_true, decide_eq_true_eq] at h
    omega
  · intro h
    have key : ∀ c ∈ asc ['!','#','%','&','*','+','-','.','/',';','<','=','>','?','@','^','`','|','~'], isOp c = true := by decide +kernel
    exact key c h

omit [Fate] in
theorem sym_closed {pre s : List Nat} {a : TextSpec.TSym} (hs : TextSpec.IsSym s a) (h : [39] <:+ pre ++ s ∨ ∃ c, TextSpec.OpChar c ∧ [c] <:+ pre ++ s) : [39] <:+ s := by
  rcases h with h | ⟨c, hc, h⟩
  · exact suffix_of_append (isSym_ne hs) h
  · have h := suffix_of_append (isSym_ne hs) h
    have hop := isOp_iff.2 hc
    have hmem : c ∈ s := by
      obtain ⟨l, rfl⟩ := h
      simp
    cases hs with
    | ident _ h1 h2 h3 =>
      exfalso
      have key : ∀ c < 128, isOp c = true → ¬ ((97 ≤ c ∧ c ≤ 122) ∨ (65 ≤ c ∧ c ≤ 90) ∨ c = 36 ∨ c = 95 ∨ (48 ≤ c ∧ c ≤ 57)) := by decide +kernel
      have hlt : c < 128 := by
        simp only [isOp, Bool.or_eq_true, decide_eq_true_eq] at hop
        omega
      refine key c hlt hop ?_
      cases s with
      | nil => exact absurd h1 (by simp [TextSpec.IsIdent])
      | cons d s =>
        obtain ⟨k1, k2⟩ := h1
        rcases List.mem_cons.1 hmem with rfl | hm
        · simp only [TextSpec.IdentStart] at k1
          omega
        · have := k2 c hm
          simp only [TextSpec.IdentStart, TextSpec.Digit] at this
          omega
    | sid ds h1 h2 =>
      exfalso
      have h3 := (isOp_facts hop)
      rcases List.mem_cons.1 hmem with rfl | hm
      · exact absurd rfl h3.2.2.2.2.2.2.2.2.2.2.2.2.2.1
      · have := h2 c hm
        have h4 := h3.2.1
        simp only [TextSpec.Digit] at this
        simp [isDigit, this] at h4
    | quoted bs t h1 => exact ⟨39 :: bs, rfl⟩

omit [Fate] in
theorem long_suffix {clob : Bool} {bs : List Nat} {t : Text} (h : TextSpec.IsLong clob bs t) (pre : List Nat) : [39] <:+ pre ++ bs := by
  have h1 : [39] <:+ bs := by
    induction h with
    | one bs t _ => exact ⟨[39, 39, 39] ++ bs ++ [39, 39], by simp [TextSpec.quotes3]⟩
    | more bs g rest t u _ _ _ _ ih =>
      obtain ⟨l, rfl⟩ := ih
      exact ⟨TextSpec.quotes3 ++ (bs ++ (TextSpec.quotes3 ++ (g ++ l))), by simp⟩
  exact h1.trans (List.suffix_append pre bs)

omit [Fate] in
theorem long_start {clob : Bool} {bs : List Nat} {t : Text} (h : TextSpec.IsLong clob bs t) : ∃ r, bs = 39 :: 39 :: 39 :: r := by
  cases h with
  | one bs t _ => exact ⟨_, rfl⟩
  | more bs g rest t u _ _ _ _ => exact ⟨_, rfl⟩

omit [Fate] in
theorem ender_of {n : Spec.Node TextSpec.TSym} {bs : List Nat} (h : ((g ++ r).headD EOF ∈ enders ∧ (g = [] → r.headD 0 ≠ 47)) ∨ (P.ty = some .sexp ∧ g = [] ∧ TextSpec.IsJoined n bs r)) : Ender P ((g ++ r).headD EOF) := by
  rcases h with h | ⟨h1, rfl, h2⟩
  · exact .inl h.1
  · obtain ⟨c, r', rfl, hc⟩ := h2.operator
    exact .inr ⟨h1, isOp_iff.2 hc⟩

omit [Fate] in
theorem exponent_digit {ex : List Nat} {i : Int} (h : TextSpec.IsExponent ex i) : ∃ d, TextSpec.Digit d ∧ [d] <:+ ex := by
  have key : ∀ (ds : List Nat), ds ≠ [] → TextSpec.Digits ds → ∃ d, TextSpec.Digit d ∧ [d] <:+ ds := by
    intro ds h1 h2
    exact ⟨ds.getLast h1, h2 _ (List.getLast_mem h1), ds.dropLast, List.dropLast_concat_getLast h1⟩
  cases h with
  | none _ h1 h2 => exact key _ h1 h2
  | plus ds h1 h2 =>
    obtain ⟨d, h3, h4⟩ := key _ h1 h2
    exact ⟨d, h3, h4.trans (List.suffix_cons _ _)⟩
  | minus ds h1 h2 =>
    obtain ⟨d, h3, h4⟩ := key _ h1 h2
    exact ⟨d, h3, h4.trans (List.suffix_cons _ _)⟩

/-- A scalar. -/
theorem at_scalar {f0 : Option TextSpec.TSym} {as0 : List TextSpec.TSym} {pre bs : List Nat} {v : Spec.Scalar TextSpec.TSym} (hs : TextSpec.IsScalarText F bs v) (hv : EndsAt P (.scalar f0 as0 v) (pre ++ bs) g r) (h : Rest F P r es)
    (hsx : P.ty = some .sexp → P.outer ≠ []) (hm : P.outer = [] → as = [] → ¬ TextSpec.IsMarkerText bs) (hst : P.ty = some .struct → f ≠ none) :
    At F P false false (childOf f as) cm (bs ++ (g ++ r)) (scalarEv f as P.outer.length v.ty (TextSpec.scalarValue v) :: es) := by
  have hgap := h.gap hv.follow
  have hve : ¬ TextSpec.Closed (pre ++ bs) (.scalar f0 as0 v) → ¬ TextSpec.IsWord (pre ++ bs) (.scalar f0 as0 v) → VEnd P g r :=
    fun hn hw => have he := (hv.ender.resolve_left hn).resolve_right fun h => hw h.2.2.word
      ⟨hv.follow, hv.noColon, he.1, he.2⟩
  have hke : ¬ TextSpec.Closed (pre ++ bs) (.scalar f0 as0 v) → KEnd P g r := fun hn => ⟨hv.follow, hv.noColon, ender_of (hv.ender.resolve_left hn)⟩
  have hnw : ∀ {bits : UInt64} {d : Nat}, v = .float bits → TextSpec.Digit d → [d] <:+ bs → ¬ TextSpec.IsWord (pre ++ bs) (.scalar f0 as0 v) := by
    rintro bits d rfl hd h1 ⟨c, hc, h2⟩
    have h1 := h1.trans (List.suffix_append pre bs)
    obtain ⟨l, h1⟩ := h1
    obtain ⟨m, h2⟩ := h2
    rw [← h1] at h2
    have := (List.append_inj' h2 rfl).2
    simp only [List.cons.injEq, and_true] at this
    subst this
    simp only [TextSpec.IdentStart] at hc
    simp only [TextSpec.Digit] at hd
    omega
  cases hs with
  | null =>
    refine at_keyword (hke id) (fun _ => ?_) h .null none (by decide)
    rcases hv.ender with h1 | h1 | ⟨_, rfl, h1⟩
    · exact absurd h1 id
    · intro h2
      rw [h2] at h1
      exact absurd h1.1 (by decide)
    · obtain ⟨c, r', rfl, _⟩ := h1.operator
      exact fun h2 => h1.null _ _ r' rfl (by rw [show c = 46 from h2])
  | typedNull ty => exact at_typedNull ty (hke id) h
  | true_ => exact at_keyword (hke id) (by simp [asc]) h .bool (some (.bool true)) (by decide)
  | false_ => exact at_keyword (hke id) (by simp [asc]) h .bool (some (.bool false)) (by decide)
  | int neg t ds hd hs => rw [List.append_assoc]; exact at_intValue hd hs neg (hve id id) h
  | radix neg base b t ds n hb hne hd hs =>
    have := at_radix (F := F) (P := P) (f := f) (as := as) (cm := cm) hb hne hd hs neg (hve id id) h
    simpa [List.append_assoc, Spec.Scalar.ty, TextSpec.scalarValue] using this
  | float neg t co all n e ex i bits hco hs he hex hF =>
    have := at_float (f := f) (as := as) (cm := cm) hco hs he hex neg hF (hve id (by obtain ⟨d, hd, h1⟩ := exponent_digit hex; exact hnw rfl hd (h1.trans ((List.suffix_cons e ex).trans (List.suffix_append _ _))))) h
    simpa [List.append_assoc, Spec.Scalar.ty, TextSpec.scalarValue] using this
  | nan => exact at_keyword (hke id) (by simp [asc]) h .float (some (.float NAN)) (by decide)
  | posInf => exact at_posInf (hke id) h
  | negInf => exact at_negInf (hke id) h
  | decimal neg t ds fs hd hfs hs =>
    have := at_decimalValue (f := f) (as := as) (cm := cm) hd hfs hs neg (hve id id) h
    simpa [List.append_assoc, Spec.Scalar.ty, TextSpec.scalarValue] using this
  | decimalExp neg t co all n d ex i hco hs hd hex =>
    have := at_decimalExp (f := f) (as := as) (cm := cm) hco hs hd hex neg (hve id id) h
    simpa [List.append_assoc, Spec.Scalar.ty, TextSpec.scalarValue] using this
  | timestamp t _ ht => exact at_timestamp ht (hve id id) h
  | symbol _ s hs =>
    refine at_sym hs hv.follow (hv.ender.imp (fun hc => (sym_closed hs hc)) ender_of) (fun h0 => hv.empty (by rw [isSym_empty hs h0]; trivial) (by rw [h0]; exact ⟨pre ++ [39], by simp⟩)) (by simp) fun t ht => ⟨fun h1 => ?_, ?_⟩
    · rcases ht with ⟨_, rfl⟩ | ⟨h2, _⟩
      · cases s <;> exact ⟨_, rfl⟩
      · simp only [Bool.not_false, Bool.and_true, Bool.and_eq_true, decide_eq_true_eq, List.length_eq_zero_iff, List.isEmpty_iff] at h2
        exact absurd h2.1 (hsx h1)
    have hk : SymK F P false f as t r (scalarEv f as P.outer.length .symbol (some (.sym s.token)) :: es) := by
      have key : false = false ∧ (P.ty = some .struct → f ≠ none) ∧ ∃ e es', scalarEv f as P.outer.length .symbol (some (.sym s.token)) :: es = e :: es' ∧
          (dec f as).symbolEvent P.env.depth t = .ok e ∧ (e.eventType ≠ .containerStart ∧ e.eventType.isStreamSignal = false) ∧ After F P r es' := by
        refine ⟨rfl, hst, _, _, rfl, ?_, ⟨by simp [scalarEv], rfl⟩, h.toAfter⟩
        rcases ht with ⟨_, rfl⟩ | ⟨h1, h2, _, _⟩
        · cases s <;> rfl
        · simp only [Bool.not_false, Bool.and_true, Bool.and_eq_true, decide_eq_true_eq, List.length_eq_zero_iff, List.isEmpty_iff] at h1
          exact absurd h2 (hm h1.1 h1.2)
      cases r with
      | nil => exact .inr key
      | cons c r =>
        unfold SymK
        split
        · next hc => exact absurd hc (hv.noColon _)
        · exact .inr key
    exact hk
  | string bs t hb =>
    have := at_string (f := f) (as := as) (cm := cm) hb hgap
    simpa [List.append_assoc, Spec.Scalar.ty, TextSpec.scalarValue] using this
  | clob w1 bs w2 t b hw1 hb hw2 ht =>
    have := at_clob (f := f) (as := as) (cm := cm) (blank_ws hw1) hb (blank_ws hw2) ht hgap
    simpa [List.append_assoc, Spec.Scalar.ty, TextSpec.scalarValue] using this
  | longString _ t hs => exact at_longString hs hv.follow (hv.long (long_suffix hs pre)) h
  | longClob w1 bs w2 t b hw1 hs hw2 ht =>
    have := at_longClob (f := f) (as := as) (cm := cm) (blank_ws hw1) hs hw2 ht hgap
    simpa [List.append_assoc, Spec.Scalar.ty, TextSpec.scalarValue] using this
  | blob t b hs =>
    obtain ⟨ds, m, h1, h2, h3, h4⟩ := encode_form (b.map UInt8.toNat)
    have hdec : b64decode (ds ++ List.replicate m 61) = .ok (b.map UInt8.toNat) := by
      rw [← h1]
      refine Base64.decode_encode _ fun c hc => ?_
      obtain ⟨x, _, rfl⟩ := List.mem_map.1 hc
      exact x.toNat_lt
    rw [h1] at hs
    have := at_blobText (f := f) (as := as) (cm := cm) hs h2 ⟨h3, h4⟩ hdec hgap
    simpa [List.append_assoc, Spec.Scalar.ty, TextSpec.scalarValue] using this

/-! ## Containers -/

/-- The event of the start of a container. -/
def startEv (f : Option SymbolToken) (as : List SymbolToken) (d : Nat) (ty : IonType) : IonEvent :=
  { eventType := .containerStart, ionType := some ty, fieldName := f.map .tok, annotations := as.map .tok, depth := some d }

/-- The place in a container. -/
def Loc.inner (P : Loc) (ty : IonType) : Loc := ⟨⟨P.ty, false⟩ :: P.outer, some ty⟩

theorem at_open {ty : Spec.CType} (hne : ty = .struct → r ≠ []) (hr : ty = .struct → ∀ c r', r = c :: r' → c ≠ 123 ∧ c ≠ EOF)
    (h : At1 F (P.inner ty.ty) (decide (ty.ty = .struct)) false false r es) :
    At F P false false (childOf f as) cm (TextSpec.opening ty :: r) (startEv f as P.outer.length ty.ty :: es) := by
  have hls : ∀ {c : Nat} {ty : IonType} (_ : isCS (.containerStart ty) = true), plainStart P c = true → valueTable P.env c (dec f as) = .ok (dec f as, .containerStart ty) →
      (decide (c = 34) || decide (c = 39)) = false → At1 F (P.inner ty) (decide (ty = .struct)) false false r es →
      At F P false false (childOf f as) cm (c :: r) (startEv f as P.outer.length ty :: es) := by
    intro c ty hcs hp hvt hq h
    refine at_value (x := dec f as) (h := .containerStart ty) (q := false) hp hvt hq ?_
    intro cm' cf _
    refine events_go ?_
    have hon : ∀ s : St, onToken F s (.containerStart ty) false = onChar F s (s.child.getD {}) (.containerStart ty) none := by
      intro s
      cases ty <;> first | rfl | simp [isCS] at hcs
    have he : ∀ pc, St.env ⟨P.outer, P.ty, false, false, cm', cf, some (dec f as), pc⟩ = P.env := fun _ => rfl
    simp only [next, hon, Option.getD_some, onChar, handle, he, onRes, Ctx.event]
    refine run_emit rfl (events_go ?_)
    simp only [next]
    refine run_go (events_go ?_)
    simp only [next, onHead]
    exact run_head1 (P := P.inner ty) (cm := false) (fun hn => by simp [Loc.inner] at hn) (fun _ => ⟨rfl, rfl⟩) (fun _ hn => by simp [Loc.inner] at hn) h
  cases ty with
  | list => exact hls rfl (plainStart_of (.inl (by decide)) P) rfl rfl h
  | sexp => exact hls rfl (plainStart_of (.inl (by decide)) P) rfl rfl h
  | struct =>
    cases r with
    | nil => exact absurd rfl (hne rfl)
    | cons c r =>
      obtain ⟨h1, h2⟩ := hr rfl c r rfl
      refine at_value (x := dec f as) (h := .structOrLob) (q := false) (plainStart_of (.inl (by decide)) P) rfl rfl ?_
      refine t_unread (x' := dec f as) (h' := .containerStart .struct) (b' := false) rfl rfl ?_ (by simp) ?_
      · simp only [handle, h1, if_false, checkUnread, h2]
      intro cm' cf _
      refine events_go ?_
      have he : ∀ pc, St.env ⟨P.outer, P.ty, false, false, cm', cf, some (dec f as), pc⟩ = P.env := fun _ => rfl
      simp only [next]
      rw [onToken_read rfl rfl]
      refine run_read ?_
      simp only [Option.getD_some, onChar, handle, he, onRes, Ctx.event, Option.map_some]
      refine run_emit rfl (events_go ?_)
      simp only [next]
      exact run_go (h _ _ (fun _ hn => by simp [Loc.inner] at hn) fun _ => ⟨rfl, rfl⟩)

/-! ## Annotations and field names -/

omit [Fate] in
theorem gap_head {c : Nat} {g : List Nat} (hg : TextSpec.IsGap (c :: g)) : c ∈ enders ∧ c ≠ 58 ∧ c ≠ 39 := by
  obtain ⟨h1, h2⟩ := hg
  have h2 := h2 c g rfl
  generalize hl : c :: g = l at h1
  cases h1 with
  | nil => cases hl
  | space d rest hd _ =>
    simp only [List.cons.injEq] at hl
    obtain ⟨rfl, rfl⟩ := hl
    simp only [TextSpec.IsSpace] at hd
    simp only [enders, List.mem_cons, List.not_mem_nil, or_false]
    omega
  | comment cm rest hd _ =>
    obtain ⟨m, rfl⟩ := comment_head hd
    simp only [List.cons_append, List.cons.injEq] at hl
    rw [hl.1]
    decide

omit [Fate] in
theorem gap_enders (hg : TextSpec.IsGap g) (h0 : g = [] → r.headD EOF ∈ enders) : (g ++ r).headD EOF ∈ enders := by
  cases g with
  | nil => exact h0 rfl
  | cons c g => exact (gap_head hg).1

omit [Fate] in
theorem gap_noQuote (hg : TextSpec.IsGap g) (h0 : g = [] → r.headD EOF ≠ 39) : (g ++ r).headD EOF ≠ 39 := by
  cases g with
  | nil => exact h0 rfl
  | cons c g => exact (gap_head hg).2.2

omit [Fate] in
theorem gap_symTerm (hg : TextSpec.IsGap g) (h0 : g = [] → isSymTerm (r.headD EOF) = true) : isSymTerm ((g ++ r).headD EOF) = true := by
  cases g with
  | nil => exact h0 rfl
  | cons c g =>
    have h1 := (enders_facts c (gap_head hg).1).2.2.2.2.2.1
    rw [List.cons_append, List.headD_cons, h1]
    have h2 := hg.1
    generalize hl : c :: g = l at h2
    cases h2 with
    | nil => cases hl
    | space _ _ hw _ =>
      cases hl
      simp [isWs_of hw]
    | comment cm g' hc _ =>
      obtain ⟨m, rfl⟩ := comment_head hc
      cases hl
      simp

omit [Fate] in
theorem follow_colon (hg : TextSpec.IsGap g) : Follow P g (58 :: r) := by
  refine .of hg.1 fun c r' hc => ?_
  simp only [List.cons.injEq] at hc
  rw [← hc.1]
  decide

theorem at_anns {anns : List Nat} {as' : List TextSpec.TSym} (ha : TextSpec.IsAnns anns as') (hr : r = [] → P.outer ≠ []) (hsx : P.ty = some .sexp → P.outer ≠ []) :
    ∀ {as : List SymbolToken} {cm : Bool}, (∀ cm, At F P false false (childOf f (as ++ as'.map TextSpec.TSym.token)) cm r es) →
      At F P false false (childOf f as) cm (anns ++ r) es := by
  induction ha with
  | nil => intro as cm h; simpa using h cm
  | cons s g w rest a as' hs hg hb hw hrest ih =>
    intro as cm h
    simp only [List.append_assoc, List.cons_append]
    refine at_sym hs (follow_colon hg) (.inr (.inl (gap_enders hg fun _ => (by decide : 58 ∈ enders)))) (fun h0 => ⟨hb h0, gap_noQuote hg fun _ => (by decide : 58 ≠ 39), (by decide : 58 ≠ 47)⟩) (by simp) fun t ht => ⟨fun h1 => ?_, ?_⟩
    · rcases ht with ⟨_, rfl⟩ | ⟨h2, _⟩
      · cases a <;> exact ⟨_, rfl⟩
      · simp only [Bool.not_false, Bool.and_true, Bool.and_eq_true, decide_eq_true_eq, List.length_eq_zero_iff, List.isEmpty_iff] at h2
        exact absurd h2.1 (hsx h1)
    have hk := isTok_regular ht
    have hne : w ++ (rest ++ r) = [] → P.outer ≠ [] := fun hn => hr (by simp at hn; exact hn.2.2)
    have hne' : rest ++ r = [] → P.outer ≠ [] := fun hn => hr (by simp at hn; exact hn.2)
    refine symK_annotation hne (at_blank (blank_ws hw) (fun hn h0 => absurd h0 (hne' hn)) (ih ?_))
    intro cm
    rw [hk]
    have := h cm
    simpa using this

/-! ## First characters -/

omit [Fate] in
/-- A character that begins a symbol. -/
theorem sym_start {s : List Nat} {a : TextSpec.TSym} (h : TextSpec.IsSym s a) :
    ∃ c r, s = c :: r ∧ followStart c = true ∧ c ≠ 58 ∧ c ≠ 123 := by
  have key : ∀ c < 128, (isIdStart c = true ∨ c = 36 ∨ c = 39) → followStart c = true ∧ c ≠ 58 ∧ c ≠ 123 := by decide +kernel
  cases h with
  | ident _ h1 h2 h3 =>
    cases s with
    | nil => exact absurd h1 (by simp [TextSpec.IsIdent])
    | cons c r =>
      have h4 := h1.1
      simp only [TextSpec.IdentStart] at h4
      refine ⟨c, r, rfl, key c (by omega) ?_⟩
      simp only [isIdStart, isLetter, Bool.or_eq_true, Bool.and_eq_true, decide_eq_true_eq]
      omega
  | sid ds h1 h2 => exact ⟨36, ds, rfl, by decide⟩
  | quoted bs t h1 => exact ⟨39, _, rfl, by decide⟩

omit [Fate] in
theorem digit_start {c : Nat} (h : TextSpec.Digit c) : followStart c = true ∧ c ≠ 58 := by
  have key : ∀ c < 128, isDigit c = true → followStart c = true ∧ c ≠ 58 := by decide +kernel
  obtain ⟨h1, h2⟩ := h
  refine key c (by omega) ?_
  simp [isDigit, h1, h2]

omit [Fate] in
theorem uint_start {ds : List Nat} (h : TextSpec.IsUInt ds) : ∃ c r, ds = c :: r ∧ followStart c = true ∧ c ≠ 58 := by
  obtain ⟨h1, h2⟩ := uint_digits h
  cases ds with
  | nil => exact absurd rfl h1
  | cons c r => exact ⟨c, r, rfl, digit_start (h2 c (by simp))⟩

omit [Fate] in
theorem sign_start {neg : Bool} {l m : List Nat} (h : ∃ c r, l = c :: r ∧ followStart c = true ∧ c ≠ 58) :
    ∃ c r, TextSpec.signText neg ++ (l ++ m) = c :: r ∧ followStart c = true ∧ c ≠ 58 := by
  cases neg with
  | true => exact ⟨45, _, rfl, by decide⟩
  | false =>
    obtain ⟨c, r, rfl, h1⟩ := h
    exact ⟨c, r ++ m, rfl, h1⟩

omit [Fate] in
theorem spelled_start {t u : List Nat} (hs : TextSpec.Spelled t u) (h : ∃ c r, u = c :: r ∧ followStart c = true ∧ c ≠ 58) :
    ∃ c r, t = c :: r ∧ followStart c = true ∧ c ≠ 58 := by
  obtain ⟨c, r, rfl, h1⟩ := h
  cases hs with
  | cons _ t _ _ => exact ⟨c, t, rfl, h1⟩
  | under _ e _ _ t _ _ _ _ => exact ⟨c, _, rfl, h1⟩

omit [Fate] in
theorem coef_start {co all : List Nat} {n : Nat} (h : TextSpec.IsCoefficient co all n) : ∃ c r, co = c :: r ∧ followStart c = true ∧ c ≠ 58 := by
  cases h with
  | whole _ hd => exact uint_start hd
  | point ds fs hd _ =>
    obtain ⟨c, r, rfl, h1⟩ := uint_start hd
    exact ⟨c, _, rfl, h1⟩

omit [Fate] in
theorem year_start (n : Nat) (l : List Nat) : ∃ c r, decFixed 4 n ++ l = c :: r ∧ followStart c = true ∧ c ≠ 58 := by
  obtain ⟨h1, h2⟩ := decFixed_digits 4 n
  generalize decFixed 4 n = ys at h1 h2
  cases ys with
  | nil => simp at h2
  | cons c r => exact ⟨c, _, rfl, digit_start (h1 c (by simp))⟩

omit [Fate] in
theorem scalar_start {bs : List Nat} {v : Spec.Scalar TextSpec.TSym} (h : TextSpec.IsScalarText F bs v) :
    ∃ c r, bs = c :: r ∧ followStart c = true ∧ c ≠ 58 := by
  cases h with
  | null => exact ⟨110, _, rfl, by decide⟩
  | typedNull ty => exact ⟨110, _, rfl, by decide⟩
  | true_ => exact ⟨116, _, rfl, by decide⟩
  | false_ => exact ⟨102, _, rfl, by decide⟩
  | int neg t ds hd hs => simpa using sign_start (neg := neg) (m := []) (spelled_start hs (uint_start hd))
  | radix neg base b t ds n hb hne hd hs =>
    cases neg with
    | true => exact ⟨45, _, rfl, by decide⟩
    | false => exact ⟨48, _, rfl, by decide⟩
  | float neg t co all n e ex i bits hco hs he hex hF => rw [List.append_assoc]; exact sign_start (spelled_start hs (coef_start hco))
  | nan => exact ⟨110, _, rfl, by decide⟩
  | posInf => exact ⟨43, _, rfl, by decide⟩
  | negInf => exact ⟨45, _, rfl, by decide⟩
  | decimal neg t ds fs hd hfs hs => simpa using sign_start (neg := neg) (m := []) (spelled_start hs (coef_start (.point ds fs hd hfs)))
  | decimalExp neg t co all n d ex i hco hs hd hex => rw [List.append_assoc]; exact sign_start (spelled_start hs (coef_start hco))
  | timestamp t _ ht => cases ht <;> (try simp only [List.append_assoc]) <;> exact year_start _ _
  | symbol _ s hs =>
    obtain ⟨c, r, h1, h2, h3, _⟩ := sym_start hs
    exact ⟨c, r, h1, h2, h3⟩
  | string bs t hb => exact ⟨34, _, rfl, by decide⟩
  | clob w1 bs w2 t b hw1 hb hw2 ht => exact ⟨123, _, rfl, by decide⟩
  | longString _ t hs =>
    obtain ⟨r, rfl⟩ := long_start hs
    exact ⟨39, _, rfl, by decide⟩
  | longClob w1 bs w2 t b hw1 hb hw2 ht => exact ⟨123, _, rfl, by decide⟩
  | blob t b hs => exact ⟨123, _, rfl, by decide⟩

omit [Fate] in
theorem anns_start {anns rest : List Nat} {as : List TextSpec.TSym} (h : TextSpec.IsAnns anns as) (hr : ∃ c r, rest = c :: r ∧ followStart c = true ∧ c ≠ 58) :
    ∃ c r, anns ++ rest = c :: r ∧ followStart c = true ∧ c ≠ 58 := by
  cases h with
  | nil => exact hr
  | cons s g w rest' a as hs =>
    obtain ⟨c, r, rfl, h2, h3, _⟩ := sym_start hs
    exact ⟨c, _, rfl, h2, h3⟩

omit [Fate] in
theorem fieldName_start {s : List Nat} {a : TextSpec.TSym} (h : TextSpec.IsFieldName s a) : ∃ c r, s = c :: r ∧ followStart c = true ∧ c ≠ 58 ∧ c ≠ 123 := by
  cases h with
  | sym _ _ h => exact sym_start h
  | string bs t _ => exact ⟨34, _, rfl, by decide⟩
  | long _ t hs =>
    obtain ⟨r, rfl⟩ := long_start hs
    exact ⟨39, _, rfl, by decide⟩

omit [Fate] in
theorem name_start {p : TextSpec.Place} {name rest : List Nat} {f : Option TextSpec.TSym} (h : TextSpec.IsName p name f) (hr : ∃ c r, rest = c :: r ∧ followStart c = true ∧ c ≠ 58) :
    ∃ c r, name ++ rest = c :: r ∧ followStart c = true ∧ c ≠ 58 ∧ (p = some .struct → c ≠ 123) := by
  cases h with
  | none _ hp =>
    obtain ⟨c, r, h1, h2, h3⟩ := hr
    exact ⟨c, r, h1, h2, h3, fun h => absurd h hp⟩
  | some s g w a hs hg hbl hw =>
    obtain ⟨c, r, rfl, h2, h3, h4⟩ := fieldName_start hs
    exact ⟨c, _, rfl, h2, h3, fun _ => h4⟩

omit [Fate] in
theorem OpHead.append {l : List Nat} (h : OpHead l) (m : List Nat) : OpHead (l ++ m) := by
  obtain ⟨d, l, rfl, h⟩ := h
  exact ⟨d, l ++ m, rfl, h⟩

omit [Fate] in
theorem operator_of {as : List TextSpec.TSym} {t : Text} (ht : TextSpec.IsOperator t) (anns : List Nat) : TextSpec.OperatorOf (.scalar none as (.symbol (.text t))) (anns ++ t) t := by
  refine ⟨⟨none, as, rfl⟩, ?_⟩
  rcases List.eq_nil_or_concat t with rfl | ⟨m, d, rfl⟩
  · exact absurd rfl ht.1
  · refine ⟨d, ht.2.1 d (by simp), anns ++ m, ?_⟩
    simp

omit [Fate] in
/-- What may follow the slash of an operator. -/
theorem operator_tail {r : List Nat} (ht : TextSpec.IsOperator (47 :: r)) : ∀ m, OpHead m → OpHead (r ++ m) := by
  intro m hm
  cases r with
  | nil => exact hm
  | cons d r =>
    obtain ⟨-, h1, h2, h3⟩ := ht
    refine ⟨d, r ++ m, rfl, ?_, ?_, (isOp_facts (isOp_iff.2 (h1 d (by simp)))).2.2.2.2.2.1⟩
    · rintro rfl
      exact h3 ⟨[], r, rfl⟩
    · rintro rfl
      exact h2 ⟨[], r, rfl⟩

/-- The first character of a value: a slash begins an operator. -/
def FirstChar (sx : Prop) (n : Spec.Node TextSpec.TSym) (bs : List Nat) (c : Nat) (r : List Nat) : Prop :=
  followStart c = true ∨ (c = 47 ∧ sx ∧ TextSpec.OperatorOf n bs bs ∧ ∀ m, OpHead m → OpHead (r ++ m))

omit [Fate] in
theorem value_start {p : TextSpec.Place} {bs : List Nat} {n : Spec.Node TextSpec.TSym} (h : TextSpec.IsValue F p bs n) :
    ∃ c r, bs = c :: r ∧ FirstChar (p = some .sexp) n bs c r ∧ c ≠ 58 ∧ (p = some .struct → c ≠ 123) := by
  have key : (∃ c r, bs = c :: r ∧ followStart c = true ∧ c ≠ 58 ∧ (p = some .struct → c ≠ 123)) → ∃ c r, bs = c :: r ∧ FirstChar (p = some .sexp) n bs c r ∧ c ≠ 58 ∧ (p = some .struct → c ≠ 123) :=
    fun ⟨c, r, h1, h2, h3⟩ => ⟨c, r, h1, .inl h2, h3⟩
  cases h with
  | scalar _ name anns bs f as v hn ha hs _ => exact key (name_start hn (anns_start ha (scalar_start hs)))
  | cont _ name anns w body f as ty items hn ha hw _ hb =>
    refine key (name_start hn (anns_start ha ⟨TextSpec.opening ty, _, rfl, ?_⟩))
    cases ty <;> decide
  | operator anns t as ha ht =>
    by_cases h47 : t.headD 0 = 47
    · cases t with
      | nil => cases h47
      | cons c t =>
        simp only [List.headD_cons] at h47
        subst h47
        cases ha with
        | nil => exact ⟨47, t, rfl, .inr ⟨rfl, rfl, operator_of ht [], operator_tail ht⟩, by decide, by simp⟩
        | cons s g w rest' a as hs =>
          obtain ⟨c, r, rfl, h2, h3, _⟩ := sym_start hs
          exact ⟨c, _, rfl, .inl h2, h3, by simp⟩
    have : ∃ c r, t = c :: r ∧ followStart c = true ∧ c ≠ 58 := by
      cases t with
      | nil => exact absurd rfl ht.1
      | cons c t =>
        have h1 := isOp_facts (isOp_iff.2 (ht.2.1 c (by simp)))
        have h2 : c ≠ 47 := h47
        refine ⟨c, t, rfl, ?_, h1.2.2.2.2.2.2.2.2.2.2.2.2.2.2⟩
        simp [followStart, h1.2.2.2.1, h2, h1.2.2.2.2.2.1]
    obtain ⟨c, r, h1, h2, h3⟩ := anns_start ha this
    exact ⟨c, r, h1, .inl h2, h3, by simp⟩

omit [Fate] in
theorem FirstChar.ne {sx : Prop} {n : Spec.Node TextSpec.TSym} {bs : List Nat} {c : Nat} {r : List Nat} (h : FirstChar sx n bs c r) : c ≠ EOF := by
  rcases h with h | ⟨rfl, _⟩
  · simp only [followStart, Bool.and_eq_true, decide_eq_true_eq] at h
    exact h.2
  · decide

omit [Fate] in
theorem items_nil {ty : Spec.CType} {bs : List Nat} {items : List (Spec.Node TextSpec.TSym)} (h : TextSpec.IsItems F ty bs items) : bs = [] → items = [] := by
  cases h with
  | nil => exact fun _ => rfl
  | cons _ v sep rest n items hv _ _ =>
    intro h0
    obtain ⟨c, r, rfl, _⟩ := value_start hv
    simp at h0

omit [Fate] in
theorem items_head {ty : Spec.CType} {bs : List Nat} {items : List (Spec.Node TextSpec.TSym)} (h : TextSpec.IsItems F ty bs items) : ∀ c r, bs = c :: r → c ≠ EOF := by
  cases h with
  | nil => intro c r h; cases h
  | cons _ v sep rest n items hv _ _ =>
    intro c r h0
    obtain ⟨d, r', rfl, h1, _⟩ := value_start hv
    simp only [List.cons_append, List.cons.injEq] at h0
    rw [← h0.1]
    exact h1.ne

omit [Fate] in
/-- A word is not an operator. -/
theorem word_notOperator {n : Spec.Node TextSpec.TSym} {v : List Nat} {t : Text} (hw : TextSpec.IsWord v n) (ht : TextSpec.OperatorOf n v t) : False := by
  obtain ⟨⟨f, as, rfl⟩, c, hc, h1⟩ := ht
  obtain ⟨d, hd, h2⟩ := hw
  obtain ⟨l, h1⟩ := h1
  obtain ⟨m, h2⟩ := h2
  rw [← h1] at h2
  have := (List.append_inj' h2 rfl).2
  simp only [List.cons.injEq, and_true] at this
  subst this
  have hop := isOp_iff.2 hc
  have key : ∀ c < 128, isOp c = true → ¬ ((97 ≤ c ∧ c ≤ 122) ∨ (65 ≤ c ∧ c ≤ 90) ∨ c = 36 ∨ c = 95 ∨ (48 ≤ c ∧ c ≤ 57)) := by decide +kernel
  refine absurd ?_ (key _ (isOp_lt hop) hop)
  simp only [TextSpec.IdentStart, TextSpec.Digit] at hd
  omega

omit [Fate] in
/-- What follows an operator. -/
theorem apart_opHead {n : Spec.Node TextSpec.TSym} {v rest m : List Nat} {t : Text} (ho : TextSpec.OperatorOf n v t) (ha : TextSpec.IsApart n v g rest)
    (hr : ∀ c r, rest = c :: r → c ≠ EOF) (hm : rest = [] → OpHead m) : OpHead (g ++ (rest ++ m)) := by
  obtain ⟨h1, h2⟩ := ha.operator t ho
  cases g with
  | nil =>
    cases rest with
    | nil => exact hm rfl
    | cons c rest =>
      obtain ⟨k1, -, -⟩ := h2 rfl c rest rfl
      refine ⟨c, rest ++ m, rfl, ?_, ?_, hr c rest rfl⟩
      · rintro rfl
        exact k1 (isOp_iff.1 rfl)
      · rintro rfl
        exact k1 (isOp_iff.1 rfl)
  | cons c g =>
    have h3 := (gap_head ha.gap).1
    have h4 : c ≠ 47 := by rintro rfl; exact h1 g rfl
    refine ⟨c, g ++ (rest ++ m), rfl, ?_, h4, ?_⟩
    · rintro rfl
      exact absurd h3 (by decide)
    · rintro rfl
      have h5 := ha.gap.1
      generalize hl : EOF :: g = l at h5
      cases h5 with
      | nil => cases hl
      | space d rest hd _ =>
        simp only [List.cons.injEq] at hl
        rw [← hl.1] at hd
        simp [TextSpec.IsSpace, EOF] at hd
      | comment cm rest hd _ =>
        obtain ⟨k, rfl⟩ := comment_head hd
        simp [EOF] at hl

omit [Fate] in
theorem items_start {ty : Spec.CType} {bs : List Nat} {items : List (Spec.Node TextSpec.TSym)} (h : TextSpec.IsItems F ty bs items) :
    bs = [] ∨ ∃ c r, bs = c :: r ∧ (followStart c = true ∨ (c = 47 ∧ ty = .sexp ∧ ∀ m, OpHead m → OpHead (r ++ m))) ∧ c ≠ 58 ∧ (ty = .struct → c ≠ 123) := by
  cases h with
  | nil => exact .inl rfl
  | cons _ v sep rest n items hv hsep hrest =>
    obtain ⟨c, r, rfl, h1, h2, h3⟩ := value_start hv
    refine .inr ⟨c, _, rfl, ?_, h2, fun h => h3 (by rw [h])⟩
    rcases h1 with h1 | ⟨rfl, hty, ho, h4⟩
    · exact .inl h1
    · refine .inr ⟨rfl, Option.some.inj hty, fun m hm => ?_⟩
      show OpHead ((r ++ (sep ++ rest)) ++ m)
      rw [List.append_assoc, List.append_assoc]
      refine h4 _ ?_
      cases hsep with
      | comma _ g w _ hty' => exact absurd (Option.some.inj hty) hty'
      | last _ _ hg =>
        have := apart_opHead (m := m) ho hg (fun c r h => by cases h) fun _ => hm
        simpa using this
      | sexp g _ hg => exact apart_opHead ho hg (items_head hrest) fun _ => hm
      | joined _ hj => exact absurd ho (word_notOperator hj.word)

omit [Fate] in
theorem startsOp_items {ty : Spec.CType} {bs m : List Nat} {items : List (Spec.Node TextSpec.TSym)} (h : TextSpec.IsItems F ty bs items) (hP : P.ty = some ty.ty)
    (hm : ∀ c r', m = c :: r' → followStart c = true ∧ c ≠ 58) (hm0 : OpHead m) : StartsOp P false (bs ++ m) ∧ ∀ r', bs ++ m ≠ 58 :: r' := by
  rcases items_start h with rfl | ⟨d, rest, rfl, h1, h2, _⟩
  · exact ⟨startsOp_of fun c r' h => (hm c r' h).1, fun r' h => (hm 58 r' h).2 rfl⟩
  · refine ⟨fun c r' hc => ?_, fun r' hc => ?_⟩
    · simp only [List.cons_append, List.cons.injEq] at hc
      rw [← hc.1, ← hc.2]
      rcases h1 with h1 | ⟨rfl, hty, h1⟩
      · exact .inl h1
      · exact .inr ⟨rfl, rfl, by rw [hP, hty]; rfl, h1 m hm0⟩
    · simp only [List.cons_append, List.cons.injEq] at hc
      exact h2 hc.1

/-! ## Values -/

/-- The place of the grammar is the place of the reader. -/
structure Same (P : Loc) (p : TextSpec.Place) : Prop where
  ty : P.ty = p.map Spec.CType.ty
  top : P.outer = [] → p = none

omit [Fate] in
theorem Same.sexp {p : TextSpec.Place} (h : Same P p) : P.ty = some .sexp → P.outer ≠ [] := by
  intro h1 h2
  rw [h.ty, h.top h2] at h1
  simp at h1

omit [Fate] in
theorem headD_ne {m : List Nat} (h : m.headD EOF ≠ 47) : m.headD 0 ≠ 47 := by
  cases m with
  | nil => decide
  | cons c m => exact h

omit [Fate] in
/-- The text ends, or an ender stands first, or the value is closed. -/
theorem ends_of {n : Spec.Node TextSpec.TSym} {v rest m : List Nat} (ha : TextSpec.IsApart n v g rest) (hs : StartsOp P false (rest ++ m)) (hnc : ∀ r', rest ++ m ≠ 58 :: r')
    (hm : m.headD EOF ∈ enders) (hm' : m.headD EOF ≠ 39) (hm2 : m.headD EOF ≠ 47) : EndsAt P n v g (rest ++ m) := by
  have h47 : (rest ++ m).headD 0 = 47 → ∃ r, rest = 47 :: r := by
    cases rest with
    | nil => exact fun h => absurd h (headD_ne hm2)
    | cons c rest => exact fun h => ⟨rest, by rw [show c = 47 from h]⟩
  refine ⟨⟨ha.gap.1, hs, fun h => ?_⟩, hnc, ?_, fun he _ => ⟨(ha.empty he).1, gap_noQuote ha.gap fun h0 => ?_, fun h => ?_⟩, fun hl => ?_, fun t ht => ?_⟩
  · obtain ⟨r, h⟩ := h47 h
    exact (ha.slash r h).1
  · by_cases hc : TextSpec.Closed v n
    · exact .inl hc
    · have key : g = [] → (rest ++ m).headD EOF ∈ enders ∧ (rest ++ m).headD 0 ≠ 47 := by
        intro h0
        rcases ha.apart h0 with rfl | h1 | ⟨c, r', rfl, h1⟩
        · exact ⟨hm, headD_ne hm2⟩
        · exact absurd h1 hc
        · have : ∀ c ∈ [91, 40, 123, 34, 39], c ∈ enders ∧ c ≠ 47 := by decide
          exact this c h1
      exact .inr (.inl ⟨gap_enders ha.gap fun h0 => (key h0).1, fun h0 => (key h0).2⟩)
  · cases rest with
    | nil => exact hm'
    | cons c rest =>
      intro h1
      exact (ha.empty he).2 h0 rest (by simpa using h1)
  · obtain ⟨r, h⟩ := h47 h
    exact (ha.slash r h).2 he
  · cases rest with
    | nil => exact hm'
    | cons c rest =>
      intro h1
      exact ha.long hl rest (by simpa using h1)
  · obtain ⟨h1, h2⟩ := ha.operator t ht
    have key : ∀ c ∈ enders, c ≠ 47 → isOp c = false ∧ c ≠ 105 ∧ isDigit c = false := by decide
    cases g with
    | nil =>
      rw [List.nil_append]
      cases rest with
      | nil =>
        obtain ⟨k1, k2, k3⟩ := key _ hm hm2
        exact ⟨k1, fun _ => k2, fun _ => k3⟩
      | cons c rest =>
        obtain ⟨k1, k2, k3⟩ := h2 rfl c rest rfl
        refine ⟨?_, k2, fun h => ?_⟩
        · have := mt isOp_iff.1 k1
          simpa using this
        · have := k3 h
          simp only [TextSpec.Digit] at this
          simpa [isDigit] using this
    | cons c g =>
      obtain ⟨k1, k2, k3⟩ := key c (gap_head ha.gap).1 (by rintro rfl; exact h1 g rfl)
      exact ⟨k1, fun _ => k2, fun _ => k3⟩

omit [Fate] in
/-- An operator stands directly after a word. -/
theorem joined_ends {n : Spec.Node TextSpec.TSym} {v rest : List Nat} (hp : P.ty = some .sexp) (h : TextSpec.IsJoined n v rest) (hs : StartsOp P false rest) (hnc : ∀ r', rest ≠ 58 :: r') :
    EndsAt P n v [] rest := by
  obtain ⟨hw, ho, hn⟩ := h
  refine ⟨⟨.nil, hs, fun _ => by simp [TextSpec.IsBlank]⟩, hnc, .inr (.inr ⟨hp, rfl, hw, ho, hn⟩), fun he h1 => ?_, fun hl => ?_, fun t ht => absurd ht (word_notOperator hw)⟩
  · exfalso
    have key : ∀ d, (TextSpec.IdentStart d ∨ TextSpec.Digit d) → [d] <:+ v → False := by
      intro d hd h2
      obtain ⟨l, h1⟩ := h1
      obtain ⟨m, h2⟩ := h2
      rw [← h1] at h2
      have := (List.append_inj' h2 rfl).2
      simp only [List.cons.injEq, and_true] at this
      subst this
      simp [TextSpec.IdentStart, TextSpec.Digit] at hd
    match n, he, hw with
    | .scalar f as (.symbol (.text [])), _, ⟨d, hd, h2⟩ => exact key d hd h2
  · obtain ⟨c, r', rfl, hc⟩ := ho
    rintro rfl
    exact absurd (isOp_iff.2 hc) (by decide)

omit [Fate] in
theorem eventsOf_scalar (d : Nat) (f : Option TextSpec.TSym) (as : List TextSpec.TSym) (v : Spec.Scalar TextSpec.TSym) :
    TextSpec.eventsOf d (.scalar f as v) = [scalarEv (f.map TextSpec.TSym.token) (as.map TextSpec.TSym.token) d v.ty (TextSpec.scalarValue v)] := by
  simp [TextSpec.eventsOf, scalarEv, Option.map_map, List.map_map, Function.comp_def]

omit [Fate] in
theorem eventsOf_cont (d : Nat) (f : Option TextSpec.TSym) (as : List TextSpec.TSym) (ty : Spec.CType) (items : List (Spec.Node TextSpec.TSym)) :
    TextSpec.eventsOf d (.cont f as ty items) = startEv (f.map TextSpec.TSym.token) (as.map TextSpec.TSym.token) d ty.ty ::
      (TextSpec.eventsOfAll (d + 1) items ++ [{ eventType := .containerEnd, ionType := some ty.ty, depth := some d }]) := by
  simp [TextSpec.eventsOf, startEv, Option.map_map, List.map_map, Function.comp_def]

/-- Name and annotations. -/
theorem at_decorations {p : TextSpec.Place} (hp : Same P p) {name anns : List Nat} {f : Option TextSpec.TSym} {as : List TextSpec.TSym}
    (hn : TextSpec.IsName p name f) (ha : TextSpec.IsAnns anns as) (hr : r = [] → P.outer ≠ [])
    (h : (P.ty = some .struct → f.map TextSpec.TSym.token ≠ none) → ∀ cm, At F P false false (childOf (f.map TextSpec.TSym.token) (as.map TextSpec.TSym.token)) cm r es) :
    At F P (decide (P.ty = some .struct)) false none cm (name ++ (anns ++ r)) es := by
  have hanr : anns ++ r = [] → P.outer ≠ [] := fun hn => hr (by simp at hn; exact hn.2)
  cases hn with
  | none hp' =>
    have h1 : P.ty ≠ some .struct := by
      rw [hp.ty]
      cases p with
      | none => simp
      | some t => cases t <;> simp_all [Spec.CType.ty]
    rw [List.nil_append, decide_eq_false h1]
    have := at_anns (F := F) (P := P) (f := none) (es := es) ha hr hp.sexp (as := []) (cm := cm) (by simpa using h (fun h2 => absurd h2 h1))
    exact this
  | some s g w a hs hg hbl hw =>
    have h1 : P.ty = some .struct := by rw [hp.ty]; rfl
    rw [decide_eq_true h1]
    simp only [List.append_assoc, List.cons_append]
    have h2 : P.outer ≠ [] := fun h0 => by simpa using hp.top h0
    have hk : ∀ t : Tok, t.regular = a.token → SymK F P true none [] t (58 :: (w ++ (anns ++ r))) es := by
      intro t hk
      refine symK_field (fun _ => h2) (at_blank (blank_ws hw) (fun hn h0 => absurd h0 (hanr hn)) (at_anns ha hr hp.sexp ?_))
      rw [hk]
      simpa using h (by simp)
    cases hs with
    | sym _ _ hs =>
      exact at_sym (fld := true) (f := none) (as := []) hs (follow_colon hg) (.inr (.inl (gap_enders hg fun _ => (by decide : 58 ∈ enders)))) (fun h0 => ⟨hbl h0, gap_noQuote hg fun _ => (by decide : 58 ≠ 39), (by decide : 58 ≠ 47)⟩) (fun _ => .inr (gap_symTerm hg fun _ => rfl))
        fun t ht => ⟨fun h3 => by rw [h1] at h3; simp at h3, hk t (isTok_regular ht)⟩
    | string bs t hb =>
      have := at_fieldString (F := F) (P := P) (cm := cm) (es := es) (r := 58 :: (w ++ (anns ++ r))) hb (follow_colon hg) ⟨fun h3 => by rw [h1] at h3; simp at h3, hk _ rfl⟩
      simpa using this
    | long _ t hs => exact at_longField hs hg.1 (hk _ rfl)

/-- The place before a value: an operator that begins with a slash is read if there is no comment before it. -/
structure Begin (F : FloatText) (P : Loc) (fld cm : Bool) (r : List Nat) (es : List IonEvent) : Prop where
  at1 : At1 F P fld false cm r es
  idle : r.headD 0 ≠ 47 → At F P fld false none cm r es
  slash : Slash F P r es

theorem Begin.of_at (h : At F P fld false none cm r es) (h1 : r.headD 0 ≠ 47) : Begin F P fld cm r es :=
  ⟨h.at1, fun _ => h, fun r' h2 => absurd (by rw [h2]; rfl) h1⟩

theorem Begin.rest (h : Begin F P false P.outer.isEmpty r es) (hd : P.env.isDelimited = false) (hne : r = [] → P.outer = []) : Rest F P r es := by
  refine ⟨⟨hne, ?_, h.slash⟩, fun h1 => ?_⟩
  · rw [hd]; exact h.at1
  · rw [hd]; exact h.idle h1

/-- Whitespace and comments before a value. -/
theorem at1_trivia (hg : TextSpec.IsTrivia g) (hb : r.headD 0 = 47 → TextSpec.IsBlank g) (h1 : P.outer = [] → cm = true) (h2 : P.outer = [] → fld = false) (h : Begin F P fld cm r es) :
    At1 F P fld false cm (g ++ r) es := by
  by_cases h47 : r.headD 0 = 47
  · have := blank_ws (hb h47)
    clear hg hb
    induction g with
    | nil => exact h.at1
    | cons c g ih => exact at1_ws (this c (by simp)) (fun _ h0 => h1 h0) (ih fun d hd => this d (by simp [hd]))
  · exact (at_trivia hg h1 h2 (h.idle h47)).at1

omit [Fate] in
theorem head_ne_slash {p : TextSpec.Place} {bs m : List Nat} (h : ∃ c r, bs = c :: r ∧ followStart c = true ∧ c ≠ 58 ∧ (p = some .struct → c ≠ 123)) : (bs ++ m).headD 0 ≠ 47 := by
  obtain ⟨c, r, rfl, h1, _⟩ := h
  simp only [followStart, Bool.and_eq_true, decide_eq_true_eq] at h1
  exact h1.1.2

/-- What a value leads to. -/
def ValueOk (F : FloatText) (p : TextSpec.Place) (bs : List Nat) (n : Spec.Node TextSpec.TSym) : Prop :=
  ∀ {P : Loc} {cm : Bool} {g r : List Nat} {es : List IonEvent}, Same P p → EndsAt P n bs g r → Rest F P r es →
    Begin F P (decide (P.ty = some .struct)) cm (bs ++ (g ++ r)) (TextSpec.eventsOf P.outer.length n ++ es)

/-- What the values of a container lead to. -/
def ItemsOk (F : FloatText) (ty : Spec.CType) (bs : List Nat) (items : List (Spec.Node TextSpec.TSym)) : Prop :=
  ∀ {P : Loc} {cm : Bool} {r : List Nat} {es : List IonEvent}, After F P r es →
    Begin F (P.inner ty.ty) (decide (ty.ty = .struct)) cm (bs ++ TextSpec.closing ty :: r)
      (TextSpec.eventsOfAll (P.outer.length + 1) items ++ { eventType := .containerEnd, ionType := some ty.ty, depth := some P.outer.length } :: es)

omit [Fate] in
theorem _root_.Ion.TextSpec.IsJoined.append {n : Spec.Node TextSpec.TSym} {v rest : List Nat} (h : TextSpec.IsJoined n v rest) (m : List Nat) : TextSpec.IsJoined n v (rest ++ m) := by
  obtain ⟨hw, ⟨c, r, rfl, hc⟩, hn⟩ := h
  refine ⟨hw, ⟨c, r ++ m, rfl, hc⟩, fun f as r' h1 h2 => ?_⟩
  simp only [List.cons_append, List.cons.injEq] at h2
  exact hn f as r h1 (by rw [h2.1])

omit [Fate] in
theorem closing_facts (ty : Spec.CType) : isEnd (some ty.ty) (TextSpec.closing ty) = true ∧ followStart (TextSpec.closing ty) = true ∧ TextSpec.closing ty ≠ 58 ∧
    TextSpec.closing ty ∈ enders ∧ TextSpec.closing ty ≠ 123 ∧ TextSpec.closing ty ≠ EOF ∧ TextSpec.closing ty ≠ 39 ∧ TextSpec.closing ty ≠ 47 := by
  cases ty <;> decide

theorem itemsOk_nil (ty : Spec.CType) : ItemsOk F ty [] [] := by
  intro P cm r es h
  exact .of_at (at_close (f := ⟨P.ty, false⟩) (closing_facts ty).1 h rfl) (closing_facts ty).2.2.2.2.2.2.2

theorem itemsOk_cons {ty : Spec.CType} {v sep rest : List Nat} {n : Spec.Node TextSpec.TSym} {items : List (Spec.Node TextSpec.TSym)} (hv : ValueOk F (some ty) v n)
    (hsep : TextSpec.IsSep n v ty sep rest) (hrest : TextSpec.IsItems F ty rest items) (hi : ItemsOk F ty rest items) : ItemsOk F ty (v ++ (sep ++ rest)) (n :: items) := by
  intro P cm r es h
  have hsame : Same (P.inner ty.ty) (some ty) := ⟨rfl, fun h0 => by simp [Loc.inner] at h0⟩
  have hdec : decide ((P.inner ty.ty).ty = some .struct) = decide (ty.ty = .struct) := by simp [Loc.inner]
  obtain ⟨c1, c2, c3, c4, c5, c6, c7, c8⟩ := closing_facts ty
  have hcl : ∀ c r', TextSpec.closing ty :: r = c :: r' → followStart c = true ∧ c ≠ 58 := by
    intro c r' hc
    simp only [List.cons.injEq] at hc
    rw [← hc.1]
    exact ⟨c2, c3⟩
  have hoh : OpHead (TextSpec.closing ty :: r) := by
    refine ⟨_, _, rfl, ?_, c8, c6⟩
    cases ty <;> decide
  have hlen : (P.inner ty.ty).outer.length = P.outer.length + 1 := by simp [Loc.inner]
  rw [TextSpec.eventsOfAll, List.append_assoc, ← hlen, ← hdec]
  obtain ⟨hst, hnc⟩ := startsOp_items (P := P.inner ty.ty) hrest rfl hcl hoh
  cases hsep with
  | comma _ g w _ hty hg hw =>
    simp only [List.append_assoc, List.cons_append]
    refine hv hsame (ends_of (rest := []) hg (startsOp_of fun c r' hc => ?_) (by simp) (by decide : 44 ∈ enders) (by decide : 44 ≠ 39) (by decide : 44 ≠ 47)) ?_
    · simp only [List.nil_append, List.cons.injEq] at hc
      rw [← hc.1]
      decide
    · have hd : (P.inner ty.ty).env.isDelimited = true := by
        cases ty <;> first | rfl | exact absurd rfl hty
      refine at_comma (cm := false) hd (at_trivia hw (by simp [Loc.inner]) (by simp [Loc.inner]) ?_) (by simp [Loc.inner])
      rw [hdec, hlen]
      refine (hi h).idle ?_
      rcases items_start hrest with rfl | ⟨d, rest', rfl, h1 | ⟨_, h1, _⟩, _⟩
      · exact c8
      · simp only [followStart, Bool.and_eq_true, decide_eq_true_eq] at h1
        exact h1.1.2
      · exact absurd h1 hty
  | last _ _ hg =>
    have h0 := items_nil hrest rfl
    subst h0
    simp only [List.append_assoc, List.nil_append, TextSpec.eventsOfAll, List.append_nil]
    refine hv hsame (ends_of (rest := []) hg (startsOp_of fun c r' hc => (hcl c r' hc).1) (fun r' hc => (hcl 58 r' hc).2 rfl) c4 c7 c8) ?_
    exact .of_at (by simp) (at_close (f := ⟨P.ty, false⟩) c1 h rfl) c8
  | sexp g _ hg =>
    simp only [List.append_assoc]
    refine hv hsame (ends_of hg hst hnc c4 c7 c8) ?_
    rw [hlen]
    exact Begin.rest (hi h) rfl (by simp)
  | joined _ hj =>
    simp only [List.append_assoc, List.nil_append]
    refine hv (g := []) hsame (joined_ends rfl (hj.append _) hst hnc) ?_
    rw [hlen]
    exact Begin.rest (hi h) rfl (by simp)

theorem valueOk_scalar {p : TextSpec.Place} {name anns bs : List Nat} {f : Option TextSpec.TSym} {as : List TextSpec.TSym} {v : Spec.Scalar TextSpec.TSym}
    (hn : TextSpec.IsName p name f) (ha : TextSpec.IsAnns anns as) (hs : TextSpec.IsScalarText F bs v) (hm : p = none → as = [] → ¬ TextSpec.IsMarkerText bs) :
    ValueOk F p (name ++ (anns ++ bs)) (.scalar f as v) := by
  intro P cm g r es hp hv h
  have hst := name_start hn (anns_start ha (scalar_start hs))
  refine .of_at ?_ (head_ne_slash hst)
  rw [eventsOf_scalar]
  simp only [List.append_assoc, List.cons_append, List.nil_append]
  obtain ⟨c, r', hc, _⟩ := scalar_start hs
  refine at_decorations hp hn ha (by simp [hc]) fun hst cm => ?_
  exact at_scalar (pre := name ++ anns) hs (by rw [List.append_assoc]; exact hv) h hp.sexp (fun h1 h2 => hm (hp.top h1) (by simpa using h2)) hst

theorem valueOk_operator {anns t : List Nat} {as : List TextSpec.TSym} (ha : TextSpec.IsAnns anns as) (ht : TextSpec.IsOperator t) :
    ValueOk F (some .sexp) (anns ++ t) (.scalar none as (.symbol (.text t))) := by
  intro P cm g r es hp hv h
  have hop := operator_of (as := as) ht anns
  have htail := fun r => operator_tail (r := r)
  rw [eventsOf_scalar]
  simp only [List.append_assoc, List.cons_append, List.nil_append]
  obtain ⟨ht0, hops, -, -⟩ := id ht
  have hsx : P.ty = some .sexp := hp.ty
  have hgap := h.gap hv.follow
  have hout : P.outer ≠ [] := fun h0 => by have := hp.top h0; cases this
  have hne : g ++ r ≠ [] := by
    intro h0
    rw [h0] at hgap
    exact hout (hgap.nil rfl)
  obtain ⟨h1, h2, h3⟩ := hv.operator t hop
  have he : (g ++ r).headD EOF ≠ EOF := by
    cases g with
    | nil =>
      cases r with
      | nil => exact absurd rfl hne
      | cons c r =>
        rcases hv.follow.start c r rfl with this | ⟨rfl, _⟩
        · simp only [followStart, Bool.and_eq_true, decide_eq_true_eq] at this
          exact this.2
        · simp [EOF]
    | cons c g =>
      have h4 := hv.follow.triv
      generalize hl : c :: g = l at h4
      cases h4 with
      | nil => cases hl
      | space d rest hd _ =>
        simp only [List.cons.injEq] at hl
        obtain ⟨rfl, rfl⟩ := hl
        simp only [TextSpec.IsSpace] at hd
        simp only [List.cons_append, List.headD_cons, EOF]
        omega
      | comment cm rest hd _ =>
        obtain ⟨m, rfl⟩ := comment_head hd
        simp [EOF]
  have hoh : OpHead (g ++ r) := by
    revert h1 he hne
    generalize g ++ r = l
    intro hne h1 he
    cases l with
    | nil => exact absurd rfl hne
    | cons c l =>
      refine ⟨c, l, rfl, ?_, ?_, he⟩ <;>
      · rintro rfl
        cases h1
  have hops' : ∀ c ∈ t, isOp c = true := fun c hc => isOp_iff.2 (hops c hc)
  have hdeco := at_decorations (F := F) (cm := cm) (name := []) (f := none) (es := scalarEv none (as.map TextSpec.TSym.token) P.outer.length .symbol (some (.sym ⟨some t, none, none⟩)) :: es) hp
    (.none _ (by simp)) ha (r := t ++ (g ++ r)) (by simp [ht0])
  have hdec : decide (P.ty = some .struct) = false := by rw [hsx]; rfl
  by_cases h47 : t.headD 0 = 47
  · cases t with
    | nil => cases h47
    | cons c t =>
      simp only [List.headD_cons] at h47
      subst h47
      have hT : ∀ as : List SymbolToken, T F P false (octx none as none [47]) .operator false false (t ++ (g ++ r)) (scalarEv none as P.outer.length .symbol (some (.sym ⟨some (47 :: t), none, none⟩)) :: es) :=
        fun as => t_operator (v := [47]) (fun c hc => hops' c (by simp [hc])) h1 hne hgap
      cases ha with
      | nil =>
        rw [hdec]
        refine ⟨fun cm' cf _ _ => ?_, fun h => absurd rfl h, fun r' hr' _ _ => ?_⟩
        · exact events_slashStart (f := none) (as := []) hsx (htail t ht _ hoh) (hT _)
        · simp only [List.nil_append, List.cons_append, List.cons.injEq, true_and] at hr'
          rw [← hr']
          exact hT _
      | cons s g' w rest' a as' hs =>
        obtain ⟨d, l, rfl, k2, k3, _⟩ := sym_start hs
        refine .of_at ?_ ?_
        · have := hdeco (fun _ cm => ?_)
          · simpa [Spec.Scalar.ty, TextSpec.scalarValue, TextSpec.TSym.token] using this
          · intro cm' cf ch' hch _ _
            have hch' : ch' = childOf (Option.map TextSpec.TSym.token none) (List.map TextSpec.TSym.token (a :: as')) := by
              rcases hch with h | ⟨h, _⟩
              · exact h
              · simp [childOf] at h
            rw [hch']
            exact events_slashStart hsx (htail t ht _ hoh) (hT _)
        · simp only [List.cons_append, List.headD_cons]
          simp only [followStart, Bool.and_eq_true, decide_eq_true_eq] at k2
          exact k2.1.2
  · refine .of_at ?_ ?_
    · have := hdeco (fun _ cm => at_operator hsx ht0 hops' h47 h1 h2 h3 hne he hgap)
      simpa [Spec.Scalar.ty, TextSpec.scalarValue, TextSpec.TSym.token] using this
    · cases ha with
      | nil =>
        cases t with
        | nil => exact absurd rfl ht0
        | cons c t => exact h47
      | cons s g' w rest' a as' hs =>
        obtain ⟨d, l, rfl, k2, k3, _⟩ := sym_start hs
        simp only [List.cons_append, List.headD_cons]
        simp only [followStart, Bool.and_eq_true, decide_eq_true_eq] at k2
        exact k2.1.2

theorem valueOk_cont {p : TextSpec.Place} {name anns w body : List Nat} {f : Option TextSpec.TSym} {as : List TextSpec.TSym} {ty : Spec.CType}
    {items : List (Spec.Node TextSpec.TSym)} (hn : TextSpec.IsName p name f) (ha : TextSpec.IsAnns anns as) (hw : TextSpec.IsTrivia w) (hwb : ∀ r, body = 47 :: r → TextSpec.IsBlank w)
    (hb : TextSpec.IsItems F ty body items) (hi : ItemsOk F ty body items) :
    ValueOk F p (name ++ (anns ++ TextSpec.opening ty :: (w ++ (body ++ [TextSpec.closing ty])))) (.cont f as ty items) := by
  intro P cm g r es hp hv h
  have hst := name_start hn (anns_start ha (rest := TextSpec.opening ty :: (w ++ (body ++ [TextSpec.closing ty]))) ⟨TextSpec.opening ty, _, rfl, by cases ty <;> decide⟩)
  refine .of_at ?_ (head_ne_slash hst)
  rw [eventsOf_cont]
  simp only [List.append_assoc, List.cons_append, List.nil_append]
  obtain ⟨c1, c2, c3, c4, c5, c6, c7, c8⟩ := closing_facts ty
  refine at_decorations hp hn ha (by simp) fun hst cm => ?_
  refine at_open (by simp) ?_ (at1_trivia hw (fun h47 => ?_) (by simp [Loc.inner]) (by simp [Loc.inner]) (hi (h.gap hv.follow)))
  · intro hty c r' hc
    cases hw with
    | nil =>
      rcases items_start hb with rfl | ⟨d, rest', rfl, h1, h2, h3⟩
      · simp only [List.nil_append, List.cons.injEq] at hc
        rw [← hc.1]
        exact ⟨c5, c6⟩
      · simp only [List.nil_append, List.cons_append, List.cons.injEq] at hc
        rw [← hc.1]
        exact ⟨h3 hty, items_head hb d rest' rfl⟩
    | space d w hd _ =>
      simp only [List.cons_append, List.cons.injEq] at hc
      rw [← hc.1]
      simp only [TextSpec.IsSpace] at hd
      simp only [EOF]
      omega
    | comment cmt w hd _ =>
      obtain ⟨m, rfl⟩ := comment_head hd
      simp only [List.cons_append, List.cons.injEq] at hc
      rw [← hc.1]
      decide
  · cases body with
    | nil => exact absurd h47 c8
    | cons d body => exact hwb body (by rw [show d = 47 from h47])

theorem value_ok {p : TextSpec.Place} {bs : List Nat} {n : Spec.Node TextSpec.TSym} (h : TextSpec.IsValue F p bs n) : ValueOk F p bs n :=
  TextSpec.IsValue.rec (motive_1 := fun p bs n _ => ValueOk F p bs n) (motive_2 := fun ty bs items _ => ItemsOk F ty bs items)
    (fun _ _ _ _ _ _ _ hn ha hs hm => valueOk_scalar hn ha hs hm)
    (fun _ _ _ _ _ _ _ _ _ hn ha hw hwb hb ih => valueOk_cont hn ha hw hwb hb ih)
    (fun _ _ _ ha ht => valueOk_operator ha ht)
    (fun ty => itemsOk_nil ty)
    (fun _ _ _ _ _ _ _ hsep hrest ih1 ih2 => itemsOk_cons ih1 hsep hrest ih2) h

/-! ## Documents -/

omit [Fate] in
theorem doc_start {bs : List Nat} {items : List (Option (Spec.Node TextSpec.TSym))} (h : TextSpec.IsDoc F bs items) :
    ∀ c r, bs = c :: r → followStart c = true ∧ c ≠ 58 := by
  intro c r hc
  cases h with
  | nil => simp at hc
  | marker g rest items _ _ _ =>
    simp only [asc, List.map_cons, List.map_nil, List.cons_append, List.cons.injEq] at hc
    rw [← hc.1]
    decide
  | value v g rest n items hv _ _ =>
    obtain ⟨d, r', rfl, h1, h2, _⟩ := value_start hv
    simp only [List.cons_append, List.cons.injEq] at hc
    rw [← hc.1]
    refine ⟨Or.resolve_right h1 fun h => ?_, h2⟩
    cases h.2.1

theorem doc_after (h0 : Fate.o = none) {bs : List Nat} {items : List (Option (Spec.Node TextSpec.TSym))} (h : TextSpec.IsDoc F bs items) :
    At F ⟨[], none⟩ false false none true bs (TextSpec.docEvents items) := by
  induction h with
  | nil => exact ⟨rfl, .inl ⟨rfl, h0⟩⟩
  | marker g rest items hg hg0 hrest ih =>
    have hst := doc_start hrest
    have hfo : Follow ⟨[], none⟩ g rest := .of hg.1 fun c r' h => (hst c r' h).1
    have hnc : ∀ r', rest ≠ 58 :: r' := fun r' h => (hst 58 r' h).2 rfl
    have hen : (g ++ rest).headD EOF ∈ enders := gap_enders hg fun hn => by
      rcases hg0 hn with rfl | ⟨c, r', rfl, h1⟩
      · decide
      · have : ∀ c ∈ [91, 40, 123, 34, 39], c ∈ enders := by decide
        exact this c h1
    have hsym : TextSpec.IsSym (asc ['$','i','o','n','_','1','_','0']) (.text (asc ['$','i','o','n','_','1','_','0'])) := by
      refine .ident _ ?_ (by decide) ?_
      · simp [TextSpec.IsIdent, asc, TextSpec.IdentStart, TextSpec.Digit]
      · rintro ⟨ds, h1, _, h2⟩
        simp only [asc, List.map_cons, List.map_nil, List.cons.injEq] at h1
        have := h2 105 (by rw [← h1.2]; decide)
        simp [TextSpec.Digit] at this
    have hmark : TextSpec.IsMarkerText (asc ['$','i','o','n','_','1','_','0']) :=
      ⟨[49], [48], by simp [asc], by simp [TextSpec.Digits, TextSpec.Digit], by simp [TextSpec.Digits, TextSpec.Digit], by simp⟩
    refine at_sym (P := ⟨[], none⟩) (f := none) (as := []) hsym hfo (.inr (.inl hen)) (fun h0 => absurd h0 (by decide)) (by simp) fun t ht => ⟨fun h1 => by simp at h1, ?_⟩
    rcases ht with ⟨h1, _⟩ | ⟨_, _, rfl, _⟩
    · exact absurd ⟨rfl, hmark⟩ h1
    · have key : false = false ∧ ((⟨[], none⟩ : Loc).ty = some .struct → (none : Option SymbolToken) ≠ none) ∧ ∃ e es', TextSpec.docEvents (none :: items) = e :: es' ∧
          (dec none []).symbolEvent (⟨[], none⟩ : Loc).env.depth (.ivm ⟨some (asc ['$','i','o','n','_','1','_','0']), none, none⟩) = .ok e ∧
          (e.eventType ≠ .containerStart ∧ e.eventType.isStreamSignal = false) ∧ After F ⟨[], none⟩ rest es' :=
        ⟨rfl, by simp, ION_VERSION_MARKER_EVENT, _, rfl, rfl, by decide, (Rest.of_at (fun _ => rfl) ih (head_of fun c r' h => (hst c r' h).1)).toAfter⟩
      cases rest with
      | nil => exact .inr key
      | cons c rest =>
        unfold SymK
        split
        · next hc => exact absurd hc (hnc _)
        · exact .inr key
  | value v g rest n items hval hg hrest ih =>
    have hst := doc_start hrest
    have hv : EndsAt ⟨[], none⟩ n v g (rest ++ []) := ends_of hg (startsOp_of fun c r' h => (hst c r' (by simpa using h)).1) (fun r' h => (hst 58 r' (by simpa using h)).2 rfl) (by decide) (by decide) (by decide)
    rw [List.append_nil] at hv
    have := value_ok hval (P := ⟨[], none⟩) (cm := true) ⟨rfl, fun _ => rfl⟩ hv (Rest.of_at (fun _ => rfl) ih (head_of fun c r' h => (hst c r' h).1))
    refine this.idle ?_
    obtain ⟨d, r', rfl, h1, h2, _⟩ := value_start hval
    have h1 := h1.resolve_right fun h => by cases h.2.1
    simp only [followStart, Bool.and_eq_true, decide_eq_true_eq] at h1
    exact h1.1.2

/-- A document is read as its events. -/
theorem doc_events {ws bs : List Nat} {items : List (Option (Spec.Node TextSpec.TSym))} (hw : TextSpec.IsTrivia ws) (h : TextSpec.IsDoc F bs items) (h0 : Fate.o = none := by rfl) :
    Events F {} (ws ++ bs) (TextSpec.docEvents items) :=
  events_headNone (P := ⟨[], none⟩) (fun _ => rfl) (fun hn => absurd rfl hn) (fun _ _ => rfl) (at_trivia hw (fun _ => rfl) (fun _ => rfl) (doc_after h0 h))
end

end Ion.TextReader

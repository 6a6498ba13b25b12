import Verif.TextRun
import Verif.TextSpec
set_option linter.unusedSimpArgs false
/-!
# Steps of the text reader

Rules for `Ans` and `Events` (`TextRun.lean`): the outer loop of the container generator at the beginning of a token, at
whitespace and at the end of a token; the inner loop for one character of a token.
-/
namespace Ion.TextReader
open Ion
variable [Fate]

/-- From the action `a`, with the text `r` left, the reader delivers these events and ends as given by `Fate`. -/
def Run (F : FloatText) (l : Option Nat) (a : Act) (r : List Nat) (es : List IonEvent) : Prop :=
  (es = [] ∧ ((Fate.o = none ∧ Ans F l a r .ended) ∨ ∃ err, Fate.o = some err ∧ Ans F l a r (.error err))) ∨
  ∃ e s1 r1 es', es = e :: es' ∧ Ans F l a r (.event e s1 r1) ∧ e.eventType.isStreamSignal = false ∧ Events F s1 r1 es'

section
variable {F : FloatText} {l : Option Nat} {r : List Nat} {es : List IonEvent}

theorem events_iff {s : St} : Events F s r es ↔ Run F none (.go s) r es := by
  constructor
  · intro h
    cases h with
    | nil h0 h => exact .inl ⟨rfl, .inl ⟨h0, h⟩⟩
    | raised h0 h => exact .inl ⟨rfl, .inr ⟨_, h0, h⟩⟩
    | cons h h1 h2 => exact .inr ⟨_, _, _, _, rfl, h, h1, h2⟩
  · rintro (⟨rfl, ⟨h0, h⟩ | ⟨err, h0, h⟩⟩ | ⟨e, s1, r1, es', rfl, h, h1, h2⟩)
    · exact .nil h0 h
    · exact .raised h0 h
    · exact .cons h h1 h2

omit [Fate] in
theorem ans_weaken {a : Act} {o : Answer} (h : Ans F none a r o) : Ans F l a r o := by
  cases h with
  | err => exact .err
  | emit => exact .emit
  | read h => exact .read h
  | done => exact .done
  | flush h => exact .flush h
  | cut => exact .cut
  | wait => exact .wait
  | go h => exact .go h

theorem run_map {a b : Act} {l' : Option Nat} {r' : List Nat} (h : ∀ o, Ans F l a r o → Ans F l' b r' o) (h1 : Run F l a r es) : Run F l' b r' es := by
  rcases h1 with ⟨h1, ⟨h0, h2⟩ | ⟨err, h0, h2⟩⟩ | ⟨e, s1, r1, es', h1, h2, h3, h4⟩
  · exact .inl ⟨h1, .inl ⟨h0, h _ h2⟩⟩
  · exact .inl ⟨h1, .inr ⟨err, h0, h _ h2⟩⟩
  · exact .inr ⟨e, s1, r1, es', h1, h _ h2, h3, h4⟩

theorem run_weaken {a : Act} (h : Run F none a r es) : Run F l a r es := run_map (fun _ => ans_weaken) h

theorem run_read {c f : Bool} {k : Nat → Act} {x : Nat} (h : Run F (some x) (k x) r es) : Run F l (.read c f k) (x :: r) es :=
  run_map (fun _ h => .read h) h

theorem run_flush {k : Nat → Act} (h : Run F (some EOF) (k EOF) [] es) : Run F l (.read false true k) [] es :=
  run_map (fun _ h => .flush h) h

theorem run_unread {x : Nat} {a : Act} (h : Run F none a (x :: r) es) : Run F (some x) (.unread x a) r es :=
  run_map (fun _ h => .unread h) h

theorem run_go {s : St} (h : Events F s r es) : Run F l (.go s) r es := run_weaken (events_iff.1 h)

theorem events_go {s : St} (h : Run F none (next F s) r es) : Events F s r es :=
  events_iff.2 (run_map (fun _ h => .go h) h)

theorem run_emit {e : IonEvent} {s : St} (he : e.eventType.isStreamSignal = false) (h : Events F s r es) : Run F l (.emit e s) r (e :: es) :=
  .inr ⟨e, s, r, es, rfl, .emit, he, h⟩

theorem run_done {f : Bool} {k : Nat → Act} (h0 : Fate.o = none) : Run F l (.read true f k) [] [] := .inl ⟨rfl, .inl ⟨h0, .done⟩⟩

theorem run_wait {a : Act} (h0 : Fate.o = none) : Run F l (.wait a) [] [] := .inl ⟨rfl, .inl ⟨h0, .wait⟩⟩

theorem run_err {err : PyErr} (h0 : Fate.o = some err) : Run F l (.err err) r [] := .inl ⟨rfl, .inr ⟨err, h0, .err⟩⟩

theorem run_cut {k : Nat → Act} (h0 : Fate.o = some .ionException) : Run F l (.read false false k) [] [] := .inl ⟨rfl, .inr ⟨_, h0, .cut⟩⟩
end

/-! ## The outer loop -/

/-- A place: the enclosing containers and the type of the innermost one. -/
structure Loc where
  outer : List Frame
  ty : Option IonType

/-- The environment of the values there. -/
def Loc.env (P : Loc) : Env := { ty := P.ty, depth := P.outer.length }

/-- The context of a value that has a field name and annotations. -/
def dec (f : Option SymbolToken) (as : List SymbolToken) : Ctx := { fieldName := f, annotations := as }

/-- The child before the value. -/
def childOf (f : Option SymbolToken) (as : List SymbolToken) : Option Ctx := if f = none ∧ as = [] then none else some (dec f as)

/-- The child when the child is `ch`, or what a comment has left in its place. -/
def Idle (ch ch' : Option Ctx) : Prop := ch' = ch ∨ (ch = none ∧ ∃ b, ch' = some { selfDelim := true, lineComment := b })

/-- The generator is at the top of the loop, and the first character of `r` is the current one.  If the text ends here, the
stream ends at the top level and an exception is raised in a container. -/
def At (F : FloatText) (P : Loc) (fld dl : Bool) (ch : Option Ctx) (cm : Bool) (r : List Nat) (es : List IonEvent) : Prop :=
  match r with
  | [] => es = [] ∧ (P.outer = [] ∧ Fate.o = none ∨ P.outer ≠ [] ∧ Fate.o = some .ionException)
  | c :: r' => ∀ cm' cf ch', Idle ch ch' → (isWs c = true → P.outer = [] → cm' = cm) → (P.outer ≠ [] → cm' = false ∧ cf = false) → Events F ⟨P.outer, P.ty, fld, dl, cm', cf, ch', .head (some c)⟩ r' es

/-- `At`, when there is no child, and no comment has left one. -/
def At1 (F : FloatText) (P : Loc) (fld dl : Bool) (cm : Bool) (r : List Nat) (es : List IonEvent) : Prop :=
  match r with
  | [] => es = [] ∧ (P.outer = [] ∧ Fate.o = none ∨ P.outer ≠ [] ∧ Fate.o = some .ionException)
  | c :: r' => ∀ cm' cf, (isWs c = true → P.outer = [] → cm' = cm) → (P.outer ≠ [] → cm' = false ∧ cf = false) → Events F ⟨P.outer, P.ty, fld, dl, cm', cf, none, .head (some c)⟩ r' es

/-- Within a token.  `b`: the token may end here if the text does. -/
def T (F : FloatText) (P : Loc) (fld : Bool) (x : Ctx) (h : H) (q b : Bool) (r : List Nat) (es : List IonEvent) : Prop :=
  ∀ cm cf, (b = true → P.outer = [] → fld = false → cf = true) → Events F ⟨P.outer, P.ty, fld, false, cm, cf, some x, .token h q⟩ r es

/-- The context of an operator. -/
def octx (f : Option SymbolToken) (as : List SymbolToken) (ty : Option IonType) (v : List Nat) : Ctx := { dec f as with value := v, isText := true, ionType := ty }

/-- After a slash: what follows does not make it a comment. -/
def OpHead (r : List Nat) : Prop := ∃ d m, r = d :: m ∧ d ≠ 42 ∧ d ≠ 47 ∧ d ≠ EOF

/-- If an operator begins here with a slash, then it is read. -/
def Slash (F : FloatText) (P : Loc) (r : List Nat) (es : List IonEvent) : Prop :=
  ∀ r', r = 47 :: r' → OpHead r' → P.ty = some .sexp → T F P false (octx none [] none [47]) .operator false false r' es

/-- After a value.  The text does not end here in a container. -/
structure After (F : FloatText) (P : Loc) (r : List Nat) (es : List IonEvent) : Prop where
  nil : r = [] → P.outer = []
  at1 : At1 F P false P.env.isDelimited P.outer.isEmpty r es
  slash : Slash F P r es

/-- After a value and before what follows it: it is not an operator that begins with a slash, or there has been no comment. -/
structure Rest (F : FloatText) (P : Loc) (r : List Nat) (es : List IonEvent) : Prop extends After F P r es where
  idle : r.headD 0 ≠ 47 → At F P false P.env.isDelimited none P.outer.isEmpty r es

/-- A character that is neither whitespace nor special for the outer loop. -/
def plainStart (P : Loc) (c : Nat) : Bool :=
  !isWs c && c ≠ 44 && c ≠ 47 && c ≠ EOF && !isEnd P.ty c

section
variable {F : FloatText} {P : Loc} {fld dl : Bool} {ch : Option Ctx} {cm : Bool} {r : List Nat} {es : List IonEvent}

omit [Fate] in
theorem isWs_not {c : Nat} (h : isWs c = true) : c ≠ 44 ∧ c ≠ EOF ∧ c ≠ 47 ∧ (∀ t, isEnd t c = false) ∧ c ≠ 58 := by
  simp only [isWs, isWsNotNl, isNewline, Bool.or_eq_true, decide_eq_true_eq] at h
  refine ⟨by omega, by simp only [EOF]; omega, by omega, ?_, by omega⟩
  intro t
  rcases t with _ | t
  · rfl
  · cases t <;> simp [isEnd] <;> omega

omit [Fate] in
theorem idle_self : Idle ch ch := .inl rfl

omit [Fate] in
theorem idle_pending {ch ch' : Option Ctx} (h : Idle ch ch') (hp : ch.bind (·.pending) = none) : ch'.bind (·.pending) = none := by
  rcases h with rfl | ⟨_, b, rfl⟩
  · exact hp
  · rfl

omit [Fate] in
theorem idle_decorated {ch ch' : Option Ctx} (h : Idle ch ch') : decorated ch' = decorated ch := by
  rcases h with rfl | ⟨rfl, b, rfl⟩ <;> rfl

theorem At.at1 (h : At F P fld dl none cm r es) : At1 F P fld dl cm r es := by
  cases r with
  | nil => exact h
  | cons c r => exact fun cm' cf h1 h2 => h cm' cf none idle_self h1 h2

theorem After.of_at (h1 : r = [] → P.outer = []) (h : At F P false P.env.isDelimited none P.outer.isEmpty r es) (h2 : ∀ r', r = 47 :: r' → ¬ OpHead r') : After F P r es :=
  ⟨h1, h.at1, fun r' h3 h4 => absurd h4 (h2 r' h3)⟩

theorem Rest.of_at (h1 : r = [] → P.outer = []) (h : At F P false P.env.isDelimited none P.outer.isEmpty r es) (h2 : r.headD 0 ≠ 47) : Rest F P r es :=
  ⟨.of_at h1 h (fun r' h3 => absurd (by rw [h3]; rfl) h2), fun _ => h⟩

theorem After.rest (h : After F P r es) (h1 : r.headD 0 ≠ 47 → At F P false P.env.isDelimited none P.outer.isEmpty r es) : Rest F P r es := ⟨h, h1⟩

/-- The next character is read at the top of the loop. -/
theorem run_head1 {cm' cf : Bool} {l : Option Nat} (hcm : P.outer = [] → cm' = cm) (hf : P.outer ≠ [] → cm' = false ∧ cf = false) (hr : r = [] → P.outer = [] → cm = true) (h : At1 F P fld dl cm r es) :
    Run F l (.read cm' cf fun c => .go ⟨P.outer, P.ty, fld, dl, cm', cf, none, .head (some c)⟩) r es := by
  cases r with
  | nil =>
    obtain ⟨rfl, ⟨h1, h2⟩ | ⟨h1, h2⟩⟩ := h
    · rw [hcm h1, hr rfl h1]
      exact run_done h2
    · rw [(hf h1).1, (hf h1).2]
      exact run_cut h2
  | cons c r => exact run_read (run_go (h cm' cf (fun _ => hcm) hf))

theorem at1_ws {w : Nat} (hw : isWs w = true) (hr : r = [] → P.outer = [] → cm = true) (h : At1 F P fld dl cm r es) : At1 F P fld dl cm (w :: r) es := by
  intro cm' cf hcm hf
  obtain ⟨h1, h2, h3, h4, _⟩ := isWs_not hw
  refine events_go ?_
  simp only [next, onHead, h4, h1, h2, hw, decide_false, Bool.and_false, Bool.or_false, Bool.false_eq_true, if_false, if_true]
  exact run_head1 (hcm hw) hf hr h

/-- The next character is read at the top of the loop. -/
theorem run_head {cm' cf : Bool} {l : Option Nat} {ch' : Option Ctx} (hch : Idle ch ch') (hcm : P.outer = [] → cm' = cm) (hf : P.outer ≠ [] → cm' = false ∧ cf = false) (hr : r = [] → P.outer = [] → cm = true) (h : At F P fld dl ch cm r es) :
    Run F l (.read cm' cf fun c => .go ⟨P.outer, P.ty, fld, dl, cm', cf, ch', .head (some c)⟩) r es := by
  cases r with
  | nil =>
    obtain ⟨rfl, ⟨h1, h2⟩ | ⟨h1, h2⟩⟩ := h
    · rw [hcm h1, hr rfl h1]
      exact run_done h2
    · rw [(hf h1).1, (hf h1).2]
      exact run_cut h2
  | cons c r => exact run_read (run_go (h cm' cf _ hch (fun _ => hcm) hf))

theorem at_ws {w : Nat} (hw : isWs w = true) (hr : r = [] → P.outer = [] → cm = true) (h : At F P fld dl ch cm r es) : At F P fld dl ch cm (w :: r) es := by
  intro cm' cf ch' hch hcm hf
  obtain ⟨h1, h2, h3, h4, _⟩ := isWs_not hw
  refine events_go ?_
  simp only [next, onHead, h4, h1, h2, hw, decide_false, Bool.and_false, Bool.or_false, Bool.false_eq_true, if_false, if_true]
  exact run_head hch (hcm hw) hf hr h

theorem at_blank {w : List Nat} (hw : ∀ c ∈ w, isWs c = true) (hr : r = [] → P.outer = [] → cm = true) (h : At F P fld dl ch cm r es) :
    At F P fld dl ch cm (w ++ r) es := by
  induction w with
  | nil => exact h
  | cons c w ih =>
    refine at_ws (hw c (by simp)) (fun hn => hr ?_) (ih fun d hd => hw d (by simp [hd]))
    simp at hn
    exact hn.2

theorem events_headNone {cm' cf : Bool} (hcm : P.outer = [] → cm' = cm) (hf : P.outer ≠ [] → cm' = false ∧ cf = false) (hr : r = [] → P.outer = [] → cm = true) (h : At F P fld dl ch cm r es) :
    Events F ⟨P.outer, P.ty, fld, dl, cm', cf, ch, .head none⟩ r es := by
  refine events_go ?_
  simp only [next, onHead]
  exact run_head idle_self hcm hf hr h

/-- A comma after a value. -/
theorem at_comma (hP : P.env.isDelimited = true) (h : At F P (decide (P.ty = some .struct)) false none cm r es)
    (h2 : P.outer ≠ []) : Rest F P (44 :: r) es := by
  refine .of_at (by simp) ?_ (by simp)
  intro cm' cf ch' hch _ hf
  refine events_go ?_
  have hp : (St.pending ⟨P.outer, P.ty, false, P.env.isDelimited, cm', cf, ch', .head (some 44)⟩) = none := idle_pending hch rfl
  have h3 : isEnd P.ty 44 = false := by
    rcases P with ⟨o, _ | t⟩
    · rfl
    · cases t <;> rfl
  have h4 : (Env.isDelimited ⟨P.ty, P.outer.length⟩) = true := hP
  have h5 : onHead ⟨P.outer, P.ty, false, P.env.isDelimited, cm', cf, ch', .head (some 44)⟩ (some 44) =
      .read cm' cf fun c => .go ⟨P.outer, P.ty, decide (P.ty = some .struct), false, cm', cf, ch', .head (some c)⟩ := by
    simp only [onHead, St.env, hp, h3, h4, decide_true, Bool.and_self, Bool.or_true, Bool.true_or, if_true]
    cases ch' <;> simp [onClose, h3, hP]
  simp only [next, h5]
  exact run_head hch (fun hn => absurd hn h2) hf (fun _ hn => absurd hn h2) h

/-- The end of a container. -/
theorem at_close {f : Frame} {fs : List Frame} {ty : IonType} {c : Nat} (hc : isEnd (some ty) c = true)
    (h : After F ⟨fs, f.ty⟩ r es) (hf : f.isField = false) :
    At F ⟨f :: fs, some ty⟩ fld dl none cm (c :: r) ({ eventType := .containerEnd, ionType := some ty, depth := some fs.length } :: es) := by
  intro cm' cf ch' hch _ _
  refine events_go ?_
  have hp : (St.pending ⟨f :: fs, some ty, fld, dl, cm', cf, ch', .head (some c)⟩) = none := idle_pending hch rfl
  have hd : decorated ch' = false := idle_decorated hch
  have : onHead ⟨f :: fs, some ty, fld, dl, cm', cf, ch', .head (some c)⟩ (some c) =
      .emit { eventType := .containerEnd, ionType := some ty, depth := some fs.length } { outer := fs, ty := f.ty, isField := f.isField, pc := .resumed } := by
    simp only [onHead, hc, Bool.true_or, if_true, hp]
    cases ch' <;> simp [onClose, hc, hd]
  simp only [next, this]
  refine run_emit rfl (events_go ?_)
  simp only [next, hf]
  exact run_head1 (P := ⟨fs, f.ty⟩) (fun _ => rfl) (fun hn => ⟨by simpa using hn, rfl⟩) (fun _ hn => by rw [List.isEmpty_iff]; exact hn) h.at1

omit [Fate] in
theorem isEnd_eof (t : Option IonType) : isEnd t EOF = false := by
  rcases t with _ | t
  · rfl
  · cases t <;> rfl

/-- At the end of the data. -/
theorem events_eof {o : List Frame} {ty : Option IonType} {cf : Bool} (h0 : Fate.o = none) :
    Events F ⟨o, ty, fld, dl, cm, cf, none, .head (some EOF)⟩ [] [] := by
  refine events_go ?_
  have h : EOF ≠ 44 := by decide
  simp only [next, onHead, St.pending, Option.bind_none, onClose, isEnd_eof, h, decide_true, decide_false, Bool.and_false, Bool.false_or, Bool.or_true, if_true,
    Bool.false_eq_true, if_false]
  exact run_wait h0

/-- After a value, at its last character or the end of the data. -/
theorem events_after (h : After F P r es) :
    Events F ⟨P.outer, P.ty, false, P.env.isDelimited, P.outer.isEmpty, false, none, .head (some (r.headD EOF))⟩ r.tail es := by
  cases r with
  | nil =>
    simp only [List.headD_nil, List.tail_nil]
    obtain ⟨h1, ⟨rfl, ⟨-, h2⟩ | ⟨h2, -⟩⟩, -⟩ := h
    · exact events_eof h2
    · exact absurd (h1 rfl) h2
  | cons c r => exact h.at1 _ _ (fun _ _ => rfl) fun hn => ⟨by simpa using hn, rfl⟩
end

/-! ## Tokens -/

/-- Types of tokens that may end with the text. -/
def flTy : Option IonType → Bool
  | some .int | some .float | some .decimal | some .timestamp | some .symbol | some .string => true
  | _ => false

/-- `container_start_handler` gets no character. -/
def isCS : H → Bool
  | .containerStart .list | .containerStart .sexp => true
  | _ => false

section
variable {F : FloatText} {P : Loc} {fld : Bool} {x x' : Ctx} {h h' : H} {q b b' : Bool} {r : List Nat} {es : List IonEvent} {cm : Bool} {c : Nat}

omit [Fate] in
theorem decorated_childOf (f : Option SymbolToken) (as : List SymbolToken) :
    (if decorated (childOf f as) then (childOf f as).getD {} else {}) = dec f as := by
  by_cases hd : f = none ∧ as = []
  · have : childOf f as = none := if_pos hd
    rw [this]
    simp [decorated, dec, hd]
  · have h0 : childOf f as = some (dec f as) := if_neg hd
    rw [h0]
    have : decorated (some (dec f as)) = true := by
      simp only [decorated, dec]
      cases f <;> cases as <;> simp_all
    simp [this]

omit [Fate] in
theorem pending_childOf (f : Option SymbolToken) (as : List SymbolToken) : (childOf f as).bind (·.pending) = none := by
  simp only [childOf]
  by_cases hd : f = none ∧ as = [] <;> simp [hd, dec]

/-- The first character of a token. -/
theorem at_start {f : Option SymbolToken} {as : List SymbolToken} (hc : plainStart P c = true)
    (ht : (if fld then fieldTable P.env c (dec f as) else valueTable P.env c (dec f as)) = .ok (x, h))
    (hr : T F P fld x h (c = 34 || c = 39) true r es) : At F P fld false (childOf f as) cm (c :: r) es := by
  intro cm' cf ch' hch _ _
  refine events_go ?_
  simp only [plainStart, Bool.and_eq_true, Bool.not_eq_true', decide_eq_true_eq] at hc
  obtain ⟨⟨⟨⟨h1, h2⟩, h3⟩, h4⟩, h5⟩ := hc
  simp only [next, onHead, h5, h2, h4, h1, decide_false, Bool.and_false, Bool.or_false, Bool.false_eq_true, if_false, onStart, h3]
  have hp : (St.pending ⟨P.outer, P.ty, fld, false, cm', false, ch', .head (some c)⟩) = none := idle_pending hch (pending_childOf f as)
  simp only [hp]
  have hd : (if decorated ch' then ch'.getD {} else {}) = dec f as := by
    rw [← decorated_childOf f as]
    rcases hch with rfl | ⟨hn, b, rfl⟩
    · rfl
    · rw [hn]; rfl
  have he : St.env ⟨P.outer, P.ty, fld, false, cm', false, ch', .head (some c)⟩ = P.env := rfl
  simp only [hd, he]
  cases ch' with
  | none =>
    simp only [ht]
    exact run_go (hr _ _ fun _ _ hf => by simp [hf])
  | some y =>
    simp only [ht]
    exact run_go (hr _ _ fun _ _ hf => by simp [hf])

omit [Fate] in
theorem flushable_of {o : List Frame} {ty : Option IonType} {dl cf : Bool} {pc : Pc} (h1 : flTy x.ionType = true) (h2 : o = []) (h3 : fld = false) :
    St.flushable ⟨o, ty, fld, dl, cm, cf, some x, pc⟩ = true := by
  subst h2 h3
  simp only [St.flushable, List.isEmpty_nil, Bool.true_and]
  rcases hx : x.ionType with _ | t
  · rw [hx] at h1; cases h1
  · rw [hx] at h1; cases t <;> first | rfl | cases h1

omit [Fate] in
theorem onToken_read (hq : x.quoted = false) (hcs : isCS h = false) {o : List Frame} {ty : Option IonType} {dl cf : Bool} {pc : Pc} :
    onToken F ⟨o, ty, fld, dl, cm, cf, some x, pc⟩ h false =
      .read false cf fun c => onChar F ⟨o, ty, fld, dl, cm, cf, some x, pc⟩ x h (some { code := c }) := by
  simp only [onToken, Option.getD_some, hq, Bool.or_false, Bool.false_eq_true, if_false]
  cases h <;> first | rfl | skip
  rename_i ty
  cases ty <;> first | rfl | simp [isCS] at hcs

/-- A character within a token. -/
theorem t_imm (hq : x.quoted = false) (hcs : isCS h = false) (hh : handle F P.env x h { code := c } = .ok { ctx := x', res := .imm h' })
    (hb : b' = true → flTy x'.ionType = true) (hr : T F P fld x' h' false b' r es) : T F P fld x h false b (c :: r) es := by
  intro cm cf _
  refine events_go ?_
  simp only [next]
  rw [onToken_read hq hcs]
  refine run_read ?_
  have he : ∀ pc, St.env ⟨P.outer, P.ty, fld, false, cm, cf, some x, pc⟩ = P.env := fun _ => rfl
  simp only [onChar, Option.getD_some, he, hh, onRes, Option.map_some]
  refine run_go (hr _ _ fun h1 h2 h3 => ?_)
  exact flushable_of (hb h1) h2 h3

omit [Fate] in
theorem onRes_event {e : IonEvent} {s : St} {c : Option Nat} (he : e.eventType ≠ .containerStart) (hco : x.composite = false) :
    onRes s x c (.event e) = .emit e { s with child := none, pc := .afterEvent c x.selfDelim none } := by
  simp only [onRes, hco, Bool.false_eq_true, if_false]
  cases het : e.eventType <;> first | rfl | exact absurd het he

/-- The event at the end of a value that does not end with its own last character. -/
theorem run_event {e : IonEvent} {l : Option Nat} {s : St} {ch : Ch} (hs : s.outer = P.outer ∧ s.ty = P.ty ∧ s.isField = false)
    (hh : handle F P.env x h ch = .ok { ctx := x', res := .event e }) (hco : x'.composite = false) (hsd : x'.selfDelim = false)
    (he : e.eventType ≠ .containerStart ∧ e.eventType.isStreamSignal = false) (hch : ch.code = r.headD EOF) (hr : After F P r es) :
    Run F l (onChar F s x h (some ch)) r.tail (e :: es) := by
  obtain ⟨h1, h2, h3⟩ := hs
  have henv : s.env = P.env := by simp [St.env, Loc.env, h1, h2]
  simp only [onChar, Option.getD_some, henv, hh, onRes_event he.1 hco, hsd, Option.map_some]
  refine run_emit he.2 (events_go ?_)
  simp only [next, Bool.false_eq_true, if_false, hch]
  refine run_go ?_
  simp only [h1, h2, h3, St.env]
  exact events_after hr

/-- The end of a token. -/
theorem t_end {e : IonEvent} (hq : x.quoted = false) (hcs : isCS h = false)
    (hh : handle F P.env x h { code := r.headD EOF } = .ok { ctx := x', res := .event e }) (hco : x'.composite = false) (hsd : x'.selfDelim = false)
    (he : e.eventType ≠ .containerStart ∧ e.eventType.isStreamSignal = false) (hb : r = [] → b = true) (hr : After F P r es) :
    T F P false x h false b r (e :: es) := by
  intro cm cf hcf
  refine events_go ?_
  simp only [next]
  rw [onToken_read hq hcs]
  have hk : ∀ l, Run F l (onChar F ⟨P.outer, P.ty, false, false, cm, cf, some x, .token h false⟩ x h (some { code := r.headD EOF })) r.tail (e :: es) :=
    fun l => run_event ⟨rfl, rfl, rfl⟩ hh hco hsd he rfl hr
  cases r with
  | nil =>
    rw [hcf (hb rfl) (hr.1 rfl) rfl]
    rw [hcf (hb rfl) (hr.1 rfl) rfl] at hk
    exact run_flush (hk _)
  | cons c r => exact run_read (hk _)

/-- The event at the last character of a value. -/
theorem run_eventSelf {e : IonEvent} {l : Option Nat} {s : St} {ch : Ch} (hs : s.outer = P.outer ∧ s.ty = P.ty ∧ s.isField = false)
    (hh : handle F P.env x h ch = .ok { ctx := x', res := .event e }) (hco : x'.composite = false) (hsd : x'.selfDelim = true)
    (he : e.eventType ≠ .containerStart ∧ e.eventType.isStreamSignal = false) (hr : After F P r es) :
    Run F l (onChar F s x h (some ch)) r (e :: es) := by
  obtain ⟨h1, h2, h3⟩ := hs
  have henv : s.env = P.env := by simp [St.env, Loc.env, h1, h2]
  simp only [onChar, Option.getD_some, henv, hh, onRes_event he.1 hco, hsd, Option.map_some]
  refine run_emit he.2 (events_go ?_)
  simp only [next, if_true, h1, h2, h3, St.env]
  exact run_head1 (cm := P.outer.isEmpty) (fun _ => rfl) (fun hn => ⟨by simpa using hn, rfl⟩) (fun _ hn => by rw [List.isEmpty_iff]; exact hn) hr.at1

/-- The last character of a value. -/
theorem t_endSelf {e : IonEvent} (hq : x.quoted = false) (hcs : isCS h = false)
    (hh : handle F P.env x h { code := c } = .ok { ctx := x', res := .event e }) (hco : x'.composite = false) (hsd : x'.selfDelim = true)
    (he : e.eventType ≠ .containerStart ∧ e.eventType.isStreamSignal = false) (hr : After F P r es) :
    T F P false x h false b (c :: r) (e :: es) := by
  intro cm cf hcf
  refine events_go ?_
  simp only [next]
  rw [onToken_read hq hcs]
  exact run_read (run_eventSelf ⟨rfl, rfl, rfl⟩ hh hco hsd he hr)

/-! ## Quoted text -/

omit [Fate] in
theorem onToken_code {o : List Frame} {ty : Option IonType} {dl cf : Bool} {pc : Pc} (hq : (x.quoted || q) = true) (hcs : isCS h = false) :
    onToken F ⟨o, ty, fld, dl, cm, cf, some x, pc⟩ h q =
      codePoint (decide (x.ionType = some .clob)) ⟨o, ty, fld, dl, cm, cf, some x, pc⟩ fun c => onChar F ⟨o, ty, fld, dl, cm, cf, some x, pc⟩ x h (some c) := by
  simp only [onToken, Option.getD_some, hq, if_true]
  cases h <;> first | rfl | skip
  rename_i ty
  cases ty <;> first | rfl | simp [isCS] at hcs

omit [Fate] in
theorem hex_spec {c v : Nat} (h : TextSpec.HexDigit c v) : isHex c = true ∧ hexVal c = v := by
  cases h with
  | digit h1 h2 => simp [isHex, isDigit, hexVal, h1, h2]
  | upper h1 h2 =>
    have : ¬ c ≤ 57 := by omega
    simp [isHex, isDigit, hexVal, h1, h2, this]
  | lower h1 h2 =>
    have : ¬ c ≤ 57 := by omega
    have : ¬ c ≤ 70 := by omega
    simp [isHex, isDigit, hexVal, h1, h2, *]

theorem run_hex {w : Nat} {ds : List Nat} {n : Nat} (hd : TextSpec.HexNum w ds n) {m : Nat} {l : Option Nat} {k : Nat → Act} {r : List Nat}
    (h : ∀ l, Run F l (readHex m n k) r es) : Run F l (readHex (w + m) 0 k) (ds ++ r) es := by
  induction hd generalizing m l r with
  | nil => simpa using h l
  | snoc w ds n c v h1 h2 ih =>
    rw [List.append_assoc, Nat.add_assoc, Nat.add_comm 1 m]
    refine ih fun l => ?_
    obtain ⟨h3, h4⟩ := hex_spec h2
    simp only [readHex, List.singleton_append]
    refine run_read ?_
    simp only [h3, if_true, h4]
    exact h _

omit [Fate] in
theorem hexNum_lt {w : Nat} {ds : List Nat} {n : Nat} (hd : TextSpec.HexNum w ds n) : n < 16 ^ w := by
  induction hd with
  | nil => simp
  | snoc w ds n c v h1 h2 ih =>
    have : v < 16 := by cases h2 <;> omega
    rw [Nat.pow_succ]; omega

/-- Characters that may stand within quotes as they are. -/
def rawOk (v : Nat) : Prop := 32 ≤ v ∨ v = 9 ∨ v = 11 ∨ v = 12

omit [Fate] in
theorem rawOk_not {v : Nat} (h : rawOk v) (hle : v ≤ 0x10FFFF) : (!isWsNotNl v && (decide (v < 0x20) || decide (v > 0x10FFFF))) = false := by
  simp only [rawOk] at h
  by_cases h1 : v < 0x20
  · have : isWsNotNl v = true := by
      simp only [isWsNotNl, Bool.or_eq_true, decide_eq_true_eq]; omega
    simp [this]
  · have : ¬ v > 0x10FFFF := by omega
    simp [h1, this]

/-- A character within quotes. -/
theorem run_char {qc : Nat} {clob : Bool} {bs : List Nat} {v : Nat} (hc : TextSpec.IsChar qc clob bs v) {s : St} {k : Ch → Act} {l : Option Nat}
    (h : ∀ l esc, (esc = false → v ≠ qc ∧ rawOk v ∧ (clob = true → v ≤ 0x7F)) → Run F l (k { code := v, esc := esc }) r es) :
    Run F l (codePoint clob s k) (bs ++ r) es := by
  cases hc with
  | plain _ h1 h2 h3 h4 h5 =>
    simp only [codePoint, List.singleton_append]
    refine run_read ?_
    have h6 : isLowSurrogate v = false := by
      have := h2.2
      simp [isLowSurrogate]; omega
    have h7 : isHighSurrogate v = false := by
      have := h2.2
      simp [isHighSurrogate]; omega
    have h8 : v ≠ 13 := by rintro rfl; simp at h1
    simp only [h6, h7, h5, newline, h8, Bool.false_eq_true, if_false]
    exact h _ _ fun _ => ⟨h4, h1, h3⟩
  | escape e _ h1 =>
    have h0 : isLowSurrogate 92 = false ∧ isHighSurrogate 92 = false := by decide
    simp only [codePoint, List.cons_append, List.nil_append]
    refine run_read ?_
    simp only [h0.1, h0.2, Bool.false_eq_true, if_false, if_true, escapeSeq]
    refine run_read ?_
    have h2 : e ≠ 117 ∧ e ≠ 120 ∧ e ≠ 85 ∧ commonEscape e = some v := by
      simp only [TextSpec.escapes, List.mem_cons, Prod.mk.injEq, List.not_mem_nil, or_false] at h1
      rcases h1 with ⟨rfl, rfl⟩ | ⟨rfl, rfl⟩ | ⟨rfl, rfl⟩ | ⟨rfl, rfl⟩ | ⟨rfl, rfl⟩ | ⟨rfl, rfl⟩ | ⟨rfl, rfl⟩ | ⟨rfl, rfl⟩ | ⟨rfl, rfl⟩ | ⟨rfl, rfl⟩ | ⟨rfl, rfl⟩ | ⟨rfl, rfl⟩ | ⟨rfl, rfl⟩ <;> decide
    simp only [h2.1, h2.2.1, h2.2.2.1, h2.2.2.2, false_and, if_false]
    exact h _ _ (by simp)
  | hex2 ds _ h1 =>
    have h0 : isLowSurrogate 92 = false ∧ isHighSurrogate 92 = false := by decide
    simp only [codePoint, List.cons_append]
    refine run_read ?_
    simp only [h0.1, h0.2, Bool.false_eq_true, if_false, if_true, escapeSeq]
    refine run_read ?_
    have h2 := hexNum_lt h1
    simp only [show (120 : Nat) ≠ 117 from by decide, false_and, if_false, if_true]
    refine run_hex h1 (m := 0) fun l => ?_
    have h3 : ¬ v > 0x10FFFF := by omega
    have h4 : isLowSurrogate v = false := by simp [isLowSurrogate]; omega
    have h5 : isHighSurrogate v = false := by simp [isHighSurrogate]; omega
    simp only [readHex, decoded, h3, h4, h5, Bool.false_eq_true, if_false]
    exact h _ _ (by simp)
  | hex4 ds _ h0' h1 h2 =>
    have h0 : isLowSurrogate 92 = false ∧ isHighSurrogate 92 = false := by decide
    simp only [codePoint, List.cons_append]
    refine run_read ?_
    simp only [h0.1, h0.2, Bool.false_eq_true, if_false, if_true, escapeSeq]
    refine run_read ?_
    subst h0'
    simp only [Bool.false_eq_true, not_false_eq_true, true_and, if_true]
    refine run_hex h1 (m := 0) fun l => ?_
    have h3 : ¬ v > 0x10FFFF := by have := h2.1; omega
    have h4 : isLowSurrogate v = false := by have := h2.2; simp [isLowSurrogate]; omega
    have h5 : isHighSurrogate v = false := by have := h2.2; simp [isHighSurrogate]; omega
    simp only [readHex, decoded, h3, h4, h5, Bool.false_eq_true, if_false]
    exact h _ _ (by simp)
  | hex8 ds _ h0' h1 h2 =>
    have h0 : isLowSurrogate 92 = false ∧ isHighSurrogate 92 = false := by decide
    simp only [codePoint, List.cons_append]
    refine run_read ?_
    simp only [h0.1, h0.2, Bool.false_eq_true, if_false, if_true, escapeSeq]
    refine run_read ?_
    subst h0'
    simp only [show (85 : Nat) ≠ 117 from by decide, show (85 : Nat) ≠ 120 from by decide, Bool.false_eq_true, not_false_eq_true, true_and, false_and, if_false, if_true]
    refine run_hex h1 (m := 0) fun l => ?_
    have h3 : ¬ v > 0x10FFFF := by have := h2.1; omega
    have h4 : isLowSurrogate v = false := by have := h2.2; simp [isLowSurrogate]; omega
    have h5 : isHighSurrogate v = false := by have := h2.2; simp [isHighSurrogate]; omega
    simp only [readHex, decoded, h3, h4, h5, Bool.false_eq_true, if_false]
    exact h _ _ (by simp)
  | pair hs ls hh ll h0' h1 h2 h3 h4 h5 h6 =>
    have h0 : isLowSurrogate 92 = false ∧ isHighSurrogate 92 = false := by decide
    simp only [codePoint, List.cons_append, List.append_assoc]
    refine run_read ?_
    simp only [h0.1, h0.2, Bool.false_eq_true, if_false, if_true, escapeSeq]
    refine run_read ?_
    subst h0'
    simp only [Bool.false_eq_true, not_false_eq_true, true_and, if_true]
    refine run_hex h1 (m := 0) fun l => ?_
    have h7 : ¬ hh > 0x10FFFF := by omega
    have h8 : isLowSurrogate hh = false := by simp [isLowSurrogate]; omega
    have h9 : isHighSurrogate hh = true := by simp [isHighSurrogate]; omega
    have h10 : isLowSurrogate ll = true := by simp [isLowSurrogate]; omega
    simp only [show ∀ k, readHex 0 hh k = k hh from fun _ => rfl, decoded, h7, h8, h9, Bool.false_eq_true, if_false, if_true, lowEscape]
    refine run_read ?_
    simp only [if_true]
    refine run_read ?_
    simp only [if_true, Bool.false_eq_true, if_false]
    refine run_hex h2 (m := 0) fun l => ?_
    simp only [readHex, h10, if_true]
    exact h _ _ (by simp)

/-- A backslash before a line break. -/
theorem run_continued {clob : Bool} {nl : List Nat} (hb : TextSpec.IsBreak nl r) (hr : ∀ r', r = EOF :: r' → False) (hne : r ≠ []) {s : St} {k : Ch → Act} {l : Option Nat}
    (h : ∀ l, Run F l (k { code := 10, esc := true, nl := true }) r es) : Run F l (codePoint clob s k) (92 :: (nl ++ r)) es := by
  have h0 : isLowSurrogate 92 = false ∧ isHighSurrogate 92 = false := by decide
  simp only [codePoint]
  refine run_read ?_
  simp only [h0.1, h0.2, Bool.false_eq_true, if_false, if_true, escapeSeq]
  rcases hb with rfl | rfl | ⟨rfl, hb⟩
  · refine run_read ?_
    simp only [show (10 : Nat) ≠ 117 from by decide, show (10 : Nat) ≠ 120 from by decide, show (10 : Nat) ≠ 85 from by decide, false_and, if_false,
      show commonEscape 10 = none from rfl, show isNewline 10 = true from rfl, if_true, newline, show (10 : Nat) ≠ 13 from by decide]
    exact h _
  · refine run_read ?_
    simp only [show (13 : Nat) ≠ 117 from by decide, show (13 : Nat) ≠ 120 from by decide, show (13 : Nat) ≠ 85 from by decide, false_and, if_false,
      show commonEscape 13 = none from rfl, show isNewline 13 = true from rfl, if_true, newline]
    refine run_read ?_
    simp only [if_true]
    exact h _
  · refine run_read ?_
    simp only [show (13 : Nat) ≠ 117 from by decide, show (13 : Nat) ≠ 120 from by decide, show (13 : Nat) ≠ 85 from by decide, false_and, if_false,
      show commonEscape 13 = none from rfl, show isNewline 13 = true from rfl, if_true, newline]
    cases r with
    | nil => exact absurd rfl hne
    | cons c r =>
      have h1 : c ≠ 10 := by rintro rfl; exact hb r rfl
      have h2 : c ≠ EOF := by rintro rfl; exact hr r rfl
      show Run F _ _ (c :: r) es
      refine run_read ?_
      simp only [h1, h2, if_false]
      exact run_unread (h _)

/-- The closing quote. -/
theorem run_quote {qc : Nat} {clob : Bool} (hc : qc = 34 ∨ qc = 39) {s : St} {k : Ch → Act} {l : Option Nat}
    (h : ∀ l, Run F l (k { code := qc }) r es) : Run F l (codePoint clob s k) (qc :: r) es := by
  simp only [codePoint]
  refine run_read ?_
  rcases hc with rfl | rfl
  · have h0 : isLowSurrogate 34 = false ∧ isHighSurrogate 34 = false := by decide
    simp only [h0.1, h0.2, newline, Bool.false_eq_true, if_false, show (34 : Nat) ≠ 92 from by decide, show (34 : Nat) ≠ 13 from by decide]
    exact h _
  · have h0 : isLowSurrogate 39 = false ∧ isHighSurrogate 39 = false := by decide
    simp only [h0.1, h0.2, newline, Bool.false_eq_true, if_false, show (39 : Nat) ≠ 92 from by decide, show (39 : Nat) ≠ 13 from by decide]
    exact h _

/-- A character within quotes that the handler takes. -/
theorem t_char {qc : Nat} {bs : List Nat} {v : Nat} (hq : (x.quoted || q) = true) (hcs : isCS h = false)
    (hc : TextSpec.IsChar qc (decide (x.ionType = some .clob)) bs v)
    (hh : ∀ esc, (esc = false → v ≠ qc ∧ rawOk v ∧ (x.ionType = some .clob → v ≤ 0x7F)) →
      handle F P.env x h { code := v, esc := esc } = .ok { ctx := x', res := .imm h' })
    (hr : T F P fld x' h' false false r es) : T F P fld x h q b (bs ++ r) es := by
  intro cm cf _
  refine events_go ?_
  simp only [next]
  rw [onToken_code hq hcs]
  refine run_char hc fun l esc hesc => ?_
  have he : ∀ pc, St.env ⟨P.outer, P.ty, fld, false, cm, cf, some x, pc⟩ = P.env := fun _ => rfl
  simp only [onChar, Option.getD_some, he, hh esc (by simpa using hesc), onRes, Option.map_some]
  exact run_go (hr _ _ (by simp))

/-- A backslash before a line break. -/
theorem t_continued {nl : List Nat} (hq : (x.quoted || q) = true) (hcs : isCS h = false) (hb : TextSpec.IsBreak nl r) (he : ∀ r', r = EOF :: r' → False) (hne : r ≠ [])
    (hh : handle F P.env x h { code := 10, esc := true, nl := true } = .ok { ctx := x', res := .imm h' })
    (hr : T F P fld x' h' false false r es) : T F P fld x h q b (92 :: (nl ++ r)) es := by
  intro cm cf _
  refine events_go ?_
  simp only [next]
  rw [onToken_code hq hcs]
  refine run_continued hb he hne fun l => ?_
  have he : ∀ pc, St.env ⟨P.outer, P.ty, fld, false, cm, cf, some x, pc⟩ = P.env := fun _ => rfl
  simp only [onChar, Option.getD_some, he, hh, onRes, Option.map_some]
  exact run_go (hr _ _ (by simp))

omit [Fate] in
/-- What follows within quotes: the rest of the text and the closing quote. -/
theorem chars_rest {qc : Nat} {clob : Bool} {bs : List Nat} {tx : Text} (hq : qc = 34 ∨ qc = 39) (hb : TextSpec.IsChars qc clob bs tx) (m : List Nat) :
    (∀ r', bs ++ qc :: m = EOF :: r' → False) ∧ (∀ nl, TextSpec.IsBreak nl bs → TextSpec.IsBreak nl (bs ++ qc :: m)) := by
  have key : ∀ c r', bs ++ qc :: m = c :: r' → c ≠ EOF ∧ (bs = [] → c ≠ 10) := by
    intro c r' hc
    cases hb with
    | nil =>
      simp only [List.nil_append, List.cons.injEq] at hc
      rw [← hc.1]
      rcases hq with rfl | rfl <;> decide
    | cons cb rest v t hv _ =>
      cases hv with
      | plain _ h1 h2 =>
        simp only [List.cons_append, List.nil_append, List.cons.injEq] at hc
        rw [← hc.1]
        have := h2.1
        exact ⟨by simp only [EOF]; omega, by simp⟩
      | escape e _ _ | hex2 ds _ _ | hex4 ds _ _ _ _ | hex8 ds _ _ _ _ | pair hs ls hh ll _ _ _ _ _ _ _ =>
        simp only [List.cons_append, List.nil_append, List.cons.injEq] at hc
        rw [← hc.1]
        exact ⟨by decide, by simp⟩
    | continued nl rest t _ _ =>
      simp only [List.cons_append, List.nil_append, List.cons.injEq] at hc
      rw [← hc.1]
      exact ⟨by decide, by simp⟩
  refine ⟨fun r' h => (key _ _ h).1 rfl, fun nl h => ?_⟩
  rcases h with h | h | ⟨h, h'⟩
  · exact .inl h
  · exact .inr (.inl h)
  · refine .inr (.inr ⟨h, fun r hr => ?_⟩)
    cases bs with
    | nil => exact (key _ _ hr).2 rfl rfl
    | cons c bs =>
      simp only [List.cons_append, List.cons.injEq] at hr
      exact h' bs (by rw [hr.1])

/-- The closing quote is taken by the handler. -/
theorem t_quoteImm {qc : Nat} (hqc : qc = 34 ∨ qc = 39) (hq : (x.quoted || q) = true) (hcs : isCS h = false)
    (hh : handle F P.env x h { code := qc } = .ok { ctx := x', res := .imm h' })
    (hb : b' = true → flTy x'.ionType = true) (hr : T F P fld x' h' false b' r es) : T F P fld x h q b (qc :: r) es := by
  intro cm cf _
  refine events_go ?_
  simp only [next]
  rw [onToken_code hq hcs]
  refine run_quote hqc fun l => ?_
  have he : ∀ pc, St.env ⟨P.outer, P.ty, fld, false, cm, cf, some x, pc⟩ = P.env := fun _ => rfl
  simp only [onChar, Option.getD_some, he, hh, onRes, Option.map_some]
  refine run_go (hr _ _ fun h1 h2 h3 => ?_)
  exact flushable_of (hb h1) h2 h3

/-- The closing quote ends the value. -/
theorem t_quoteEnd {qc : Nat} {e : IonEvent} (hqc : qc = 34 ∨ qc = 39) (hq : (x.quoted || q) = true) (hcs : isCS h = false)
    (hh : handle F P.env x h { code := qc } = .ok { ctx := x', res := .event e }) (hco : x'.composite = false) (hsd : x'.selfDelim = true)
    (he : e.eventType ≠ .containerStart ∧ e.eventType.isStreamSignal = false) (hr : After F P r es) :
    T F P false x h q b (qc :: r) (e :: es) := by
  intro cm cf _
  refine events_go ?_
  simp only [next]
  rw [onToken_code hq hcs]
  refine run_quote hqc fun l => ?_
  exact run_eventSelf ⟨rfl, rfl, rfl⟩ hh hco hsd he hr
end

/-! ## Symbols -/

/-- The context after a symbol whose role is not known yet. -/
structure Pend (f : Option SymbolToken) (as : List SymbolToken) (t : Tok) (x : Ctx) : Prop where
  fieldName : x.fieldName = f
  annotations : x.annotations = as
  value : x.value = []
  isText : x.isText = false
  ionType : x.ionType = none
  pending : x.pending = some t
  composite : x.composite = false

/-- The outcome is the rejection of a field name. -/
structure Dead (P : Loc) (fld : Bool) (f : Option SymbolToken) (es : List IonEvent) : Prop where
  o : Fate.o = some .ionException
  es : es = []
  fld : fld = true
  outer : P.outer ≠ []
  ty : P.ty = some .struct
  f : f = none

/-- The outcome is the rejection of a version marker: `t` has no event. -/
structure Void (P : Loc) (fld : Bool) (f : Option SymbolToken) (as : List SymbolToken) (t : Tok) (es : List IonEvent) : Prop where
  o : Fate.o = some .ionException
  es : es = []
  fld : fld = false
  outer : P.outer = []
  ty : P.ty = none
  event : (dec f as).symbolEvent P.env.depth t = .error .ionException

/-- What the symbol `t` leads to when `r` follows. -/
def SymK (F : FloatText) (P : Loc) (fld : Bool) (f : Option SymbolToken) (as : List SymbolToken) (t : Tok) (r : List Nat) (es : List IonEvent) : Prop :=
  match r with
  | 58 :: r => ∀ cf x, Pend f as t x → Events F ⟨P.outer, P.ty, fld, false, false, cf, some x, .head (some 58)⟩ r es
  | r => (Dead P fld f es ∨ Void P fld f as t es) ∨ (fld = false ∧ (P.ty = some .struct → f ≠ none) ∧ ∃ e es', es = e :: es' ∧ (dec f as).symbolEvent P.env.depth t = .ok e ∧
      (e.eventType ≠ .containerStart ∧ e.eventType.isStreamSignal = false) ∧ After F P r es')

/-- The generator is at the top of the loop with a pending symbol.  `qu`: the context may still be one of quoted text. -/
def PAt (F : FloatText) (P : Loc) (fld : Bool) (f : Option SymbolToken) (as : List SymbolToken) (t : Tok) (qu : Bool) (r : List Nat) (es : List IonEvent) : Prop :=
  match r with
  | [] => Dead P fld f es ∨ (fld = false ∧ P.outer = [] ∧ ∀ cf x, Pend f as t x → Events F ⟨P.outer, P.ty, fld, false, false, cf, some x, .head (some EOF)⟩ [] es)
  | c :: r => ∀ cf x, Pend f as t x → (qu = false → x.quoted = false) → (P.outer = [] → fld = false → cf = true) → (P.outer ≠ [] → cf = false) →
      Events F ⟨P.outer, P.ty, fld, false, false, cf, some x, .head (some c)⟩ r es

/-- A character that may follow a value after whitespace. -/
def followStart (c : Nat) : Bool := !isWs c && c ≠ 47 && c ≠ EOF

section
variable {F : FloatText} {P : Loc} {fld : Bool} {x x' : Ctx} {h h' : H} {q b b' : Bool} {r : List Nat} {es : List IonEvent} {cm : Bool} {c : Nat}
  {f : Option SymbolToken} {as : List SymbolToken} {t : Tok}

omit [Fate] in
theorem symbolEvent_dec (hx : x.fieldName = f) (ha : x.annotations = as) (d : Nat) : x.symbolEvent d t = (dec f as).symbolEvent d t := by
  subst hx ha
  cases t <;> rfl

omit [Fate] in
theorem isEnd_colon (t : Option IonType) : isEnd t 58 = false := by
  rcases t with _ | t
  · rfl
  · cases t <;> rfl

theorem dead_head {cf : Bool} (hd : Dead P fld f es) (hx : Pend f as t x) (hc : followStart c = true ∨ c = EOF) (h58 : c ≠ 58) :
    Events F ⟨P.outer, P.ty, fld, false, false, cf, some x, .head (some c)⟩ r es := by
  obtain ⟨h0, rfl, rfl, _, hty, hf⟩ := hd
  refine events_go ?_
  have hst : P.ty = some .struct ∧ x.fieldName = none := ⟨hty, hx.fieldName.trans hf⟩
  simp only [next, onHead]
  by_cases hend : (isEnd P.ty c || (St.env ⟨P.outer, P.ty, true, false, false, cf, some x, .head (some c)⟩).isDelimited && decide (c = 44) || decide (c = EOF)) = true
  · rw [if_pos hend]
    simp only [St.pending, Option.bind_some, hx.pending, hx.value, ne_eq, not_true_eq_false, if_false, hst, and_self, if_true]
    exact run_err h0
  · rw [if_neg hend]
    have h6 : c ≠ EOF := by
      intro h; simp [h] at hend
    have hfs := hc.resolve_right h6
    simp only [followStart, Bool.and_eq_true, Bool.not_eq_true', decide_eq_true_eq] at hfs
    obtain ⟨⟨h4, h5⟩, _⟩ := hfs
    simp only [h4, Bool.false_eq_true, if_false, onStart, h5, St.pending, Option.bind_some, hx.pending, h58, if_true]
    exact run_err h0

theorem void_head {cf : Bool} (hd : Void P fld f as t es) (hx : Pend f as t x) (hc : followStart c = true ∨ c = EOF) (h58 : c ≠ 58) :
    Events F ⟨P.outer, P.ty, fld, false, false, cf, some x, .head (some c)⟩ r es := by
  obtain ⟨h0, rfl, rfl, ho, hty, hev⟩ := hd
  refine events_go ?_
  have hst : ¬ (P.ty = some .struct ∧ x.fieldName = none) := fun h => by rw [hty] at h; cases h.1
  have hse : x.symbolEvent P.outer.length t = .error .ionException := by rw [symbolEvent_dec hx.fieldName hx.annotations]; exact hev
  simp only [next, onHead]
  by_cases hend : (isEnd P.ty c || (St.env ⟨P.outer, P.ty, false, false, false, cf, some x, .head (some c)⟩).isDelimited && decide (c = 44) || decide (c = EOF)) = true
  · rw [if_pos hend]
    simp only [St.pending, Option.bind_some, hx.pending, hx.value, ne_eq, not_true_eq_false, if_false, hst, hse]
    exact run_err h0
  · rw [if_neg hend]
    have h6 : c ≠ EOF := by
      intro h; simp [h] at hend
    have hfs := hc.resolve_right h6
    simp only [followStart, Bool.and_eq_true, Bool.not_eq_true', decide_eq_true_eq] at hfs
    obtain ⟨⟨h4, h5⟩, _⟩ := hfs
    simp only [h4, Bool.false_eq_true, if_false, onStart, h5, St.pending, Option.bind_some, hx.pending, h58, if_true, hse]
    exact run_err h0

theorem symK_other {c : Nat} (hc : c ≠ 58) (hk : SymK F P fld f as t (c :: r) es) :
    (Dead P fld f es ∨ Void P fld f as t es) ∨ (fld = false ∧ (P.ty = some .struct → f ≠ none) ∧ ∃ e es', es = e :: es' ∧ (dec f as).symbolEvent P.env.depth t = .ok e ∧
      (e.eventType ≠ .containerStart ∧ e.eventType.isStreamSignal = false) ∧ After F P (c :: r) es') := by
  simp only [SymK] at hk
  split at hk
  · next h => simp only [List.cons.injEq] at h; exact absurd h.1 hc
  · exact hk

/-- An operator begins with a slash where a value is pending. -/
theorem events_slashOp {e : IonEvent} {ret : Option H} {cf : Bool} (hp : P.ty = some .sexp) (hq : x.quoted = false) (he : e.eventType.isStreamSignal = false) (ho : OpHead r)
    (h : T F P false (octx none [] none [47]) .operator false false r es) :
    Events F ⟨P.outer, P.ty, false, false, cm, cf, some x, .token (.sexpSlash ret (some e)) false⟩ r (e :: es) := by
  obtain ⟨d, m, rfl, h1, h2, h3⟩ := ho
  refine events_go ?_
  simp only [next]
  rw [onToken_read hq rfl]
  refine run_read ?_
  have h4 : ∀ v, handle F v x (.sexpSlash ret (some e)) { code := d } = .ok { unread := some d, ctx := { x with composite := true }, res := .composite e (some .operator) (octx none [] none [47]) } := by
    intro v
    simp only [handle, onSexpSlash, checkUnread, h3, if_false, h1, h2, or_self, thenOperator]
    rfl
  simp only [onChar, Option.getD_some, h4, onRes, Option.map_some]
  refine run_unread (run_emit he (events_go ?_))
  simp only [next, Bool.false_eq_true, if_false]
  have h5 : ∀ pc cm cf dl ch, (St.env ⟨P.outer, P.ty, false, dl, cm, cf, ch, pc⟩).isDelimited = false := by
    intro pc cm cf dl ch
    simp [St.env, Env.isDelimited, hp]
  simp only [h5]
  exact run_go (h _ _ (by simp))

/-- What begins after a symbol: a character that may follow a value, or an operator with a slash. -/
def StartsOp (P : Loc) (qu : Bool) (r : List Nat) : Prop := ∀ c r', r = c :: r' → followStart c = true ∨ (c = 47 ∧ qu = false ∧ P.ty = some .sexp ∧ OpHead r')

theorem pat_of {qu : Bool} (hr : StartsOp P qu r) (hk : SymK F P fld f as t r es) : PAt F P fld f as t qu r es := by
  cases r with
  | nil =>
    obtain (hd | hd) | ⟨rfl, hf, e, es', rfl, h1, h2, h3⟩ := hk
    · exact .inl hd
    · exact .inr ⟨hd.fld, hd.outer, fun cf x hx => void_head hd hx (.inr rfl) (by decide)⟩
    refine .inr ⟨rfl, h3.1 rfl, fun cf x hx => events_go ?_⟩
    have hse : x.symbolEvent P.outer.length t = .ok e := by rw [symbolEvent_dec hx.fieldName hx.annotations]; exact h1
    have hst : ¬ (P.ty = some .struct ∧ x.fieldName = none) := by
      rintro ⟨h4, h5⟩
      exact hf h4 (hx.fieldName ▸ h5)
    simp only [next, onHead, decide_true, Bool.or_true, if_true, St.pending, Option.bind_some, hx.pending, hx.value, ne_eq, not_true_eq_false, if_false, hst, hse]
    refine run_emit h2.2 ?_
    obtain ⟨h31, ⟨rfl, ⟨-, h32⟩ | ⟨h32, -⟩⟩, -⟩ := h3
    · exact events_eof h32
    · exact absurd (h31 rfl) h32
  | cons c r =>
    intro cf x hx hqx hcf hcont
    by_cases hc : c = 58
    · subst hc
      exact hk cf x hx
    · obtain (hd | hd) | ⟨rfl, hf, e, es', rfl, h1, h2, h3⟩ := symK_other hc hk
      · exact dead_head hd hx (.inl ((hr c r rfl).resolve_right fun h => by have := h.2.2.1; rw [hd.ty] at this; cases this)) hc
      · exact void_head hd hx (.inl ((hr c r rfl).resolve_right fun h => by have := h.2.2.1; rw [hd.ty] at this; cases this)) hc
      refine events_go ?_
      have hse : x.symbolEvent P.outer.length t = .ok e := by rw [symbolEvent_dec hx.fieldName hx.annotations]; exact h1
      have hst : ¬ (P.ty = some .struct ∧ x.fieldName = none) := by
        rintro ⟨h4, h5⟩
        exact hf h4 (hx.fieldName ▸ h5)
      rcases hr c r rfl with hfs | ⟨rfl, hqu, hsx, ho⟩
      case inr =>
        have h5 : onHead ⟨P.outer, P.ty, false, false, false, cf, some x, .head (some 47)⟩ (some 47) =
            .go ⟨P.outer, P.ty, false, false, false, false, some x, .token (.sexpSlash none (some e)) false⟩ := by
          simp only [onHead, show (47 : Nat) ≠ 44 from by decide, show (47 : Nat) ≠ EOF from by decide, show isWs 47 = false from rfl, decide_false, Bool.and_false, Bool.or_false,
            Bool.false_eq_true, if_false, onStart, if_true, Option.getD_some, hsx, show isEnd (some .sexp) 47 = false from rfl, hx.pending, hx.value, ne_eq, not_true_eq_false, hse]
        simp only [next, h5]
        exact run_go (events_slashOp hsx (hqx hqu) h2.2 ho (h3.slash _ rfl ho hsx))
      simp only [followStart, Bool.and_eq_true, Bool.not_eq_true', decide_eq_true_eq] at hfs
      obtain ⟨⟨h4, h5⟩, h6⟩ := hfs
      simp only [next, onHead, h6, decide_false, Bool.or_false]
      by_cases hend : (isEnd P.ty c || (St.env ⟨P.outer, P.ty, false, false, false, cf, some x, .head (some c)⟩).isDelimited && decide (c = 44)) = true
      · simp only [hend, if_true, St.pending, Option.bind_some, hx.pending, hx.value, ne_eq, not_true_eq_false, if_false, hst, hse]
        exact run_emit h2.2 (h3.at1 _ _ (by simp [h4]) fun hn => ⟨rfl, hcont hn⟩)
      · rw [if_neg hend]
        simp only [h4, Bool.false_eq_true, if_false, onStart, h5, St.pending, Option.bind_some, hx.pending, hc, hse]
        exact run_emit h2.2 (h3.at1 _ _ (by simp [h4]) fun _ => ⟨rfl, rfl⟩)

theorem pat_ws {qu : Bool} {w : Nat} (hw : isWs w = true) (h : PAt F P fld f as t qu r es) : PAt F P fld f as t qu (w :: r) es := by
  intro cf x hx hqu hcf hcont
  obtain ⟨h1, h2, h3, h4, _⟩ := isWs_not hw
  refine events_go ?_
  simp only [next, onHead, h4, h1, h2, hw, decide_false, Bool.and_false, Bool.or_false, Bool.false_eq_true, if_false, if_true]
  cases r with
  | nil =>
    obtain hd | ⟨h5, h6, h7⟩ := h
    · obtain ⟨h0, rfl, _, ho, _⟩ := hd
      rw [hcont ho]
      exact run_cut h0
    rw [hcf h6 h5]
    exact run_flush (run_go (h7 _ _ hx))
  | cons c r => exact run_read (run_go (h _ _ hx hqu hcf hcont))

theorem pat_blank {qu : Bool} {w : List Nat} (hw : ∀ c ∈ w, isWs c = true) (h : PAt F P fld f as t qu r es) : PAt F P fld f as t qu (w ++ r) es := by
  induction w with
  | nil => exact h
  | cons c w ih => exact pat_ws (hw c (by simp)) (ih fun d hd => hw d (by simp [hd]))

omit [Fate] in
theorem setType_quoted (x : Ctx) : (x.setType none).quoted = x.quoted := by
  simp only [Ctx.setType]; by_cases hn : x.ionType = none <;> simp [hn]

/-- The transition back to the container generator with a pending symbol, at the character after it. -/
theorem run_self {l : Option Nat} {s : St} {ch : Ch} (hs : s.outer = P.outer ∧ s.ty = P.ty ∧ s.isField = fld ∧ s.delim = false)
    (hh : handle F P.env x h ch = .ok { ctx := x', res := .self }) (hp : Pend f as t (x'.setType none)) {qu : Bool} (hqu : qu = false → x'.quoted = false)
    (hsd : x'.selfDelim = false) (hch : ch.code = r.headD EOF) (hr : PAt F P fld f as t qu r es) :
    Run F l (onChar F s x h (some ch)) r.tail es := by
  obtain ⟨h1, h2, h3, h4⟩ := hs
  have henv : s.env = P.env := by simp [St.env, Loc.env, h1, h2]
  have hsd' : (x'.setType none).selfDelim = false := by
    simp only [Ctx.setType]; by_cases hn : x'.ionType = none <;> simp [hn, hsd]
  have hq' : qu = false → (x'.setType none).quoted = false := fun h => (setType_quoted x').trans (hqu h)
  simp only [onChar, Option.getD_some, henv, hh, onRes, Option.map_some, onSelf, hsd', Bool.not_false, Bool.or_true, if_true, hp.pending, Option.isSome_some, Bool.true_or, h1, h2, h3, h4, hch]
  cases r with
  | nil =>
    obtain hd | ⟨h5, h6, h7⟩ := hr
    · rw [if_pos hd.fld]
      exact run_go (dead_head hd hp (.inr rfl) (show EOF ≠ 58 by decide))
    subst h5
    simp only [Bool.false_eq_true, if_false]
    exact run_go (h7 _ _ hp)
  | cons c r =>
    cases fld with
    | true => exact run_go (hr _ _ hp hq' (by simp) fun hn => by simp [St.flushable, hn])
    | false =>
      simp only [Bool.false_eq_true, if_false]
      refine run_go (hr _ _ hp hq' (fun h6 _ => ?_) fun hn => by simpa using hn)
      simp [h6]

/-- The transition back to the container generator with a pending symbol, at its closing quote. -/
theorem run_selfQ {qc : Nat} (hqc : qc = 34 ∨ qc = 39) {l : Option Nat} {s : St} (hs : s.outer = P.outer ∧ s.ty = P.ty ∧ s.isField = fld ∧ s.delim = false)
    (hh : handle F P.env x h { code := qc } = .ok { ctx := x', res := .self }) (hp : Pend f as t (x'.setType none)) (hqu : x'.quoted = false)
    (hlc : x'.lineComment = false) (hsd : x'.selfDelim = true) (hr : PAt F P fld f as t false r es) :
    Run F l (onChar F s x h (some { code := qc })) r es := by
  have hne : qc ≠ 58 := by omega
  obtain ⟨h1, h2, h3, h4⟩ := hs
  have henv : s.env = P.env := by simp [St.env, Loc.env, h1, h2]
  have hsd' : (x'.setType none).selfDelim = true := by
    simp only [Ctx.setType]; by_cases hn : x'.ionType = none <;> simp [hn, hsd]
  have hlc' : (x'.setType none).lineComment = false := by
    simp only [Ctx.setType]; by_cases hn : x'.ionType = none <;> simp [hn, hlc]
  have hq' : false = false → (x'.setType none).quoted = false := fun h => (setType_quoted x').trans hqu
  simp only [onChar, Option.getD_some, henv, hh, onRes, Option.map_some, onSelf, hsd', Bool.not_true, Bool.or_false, hp.pending, Option.isSome_some, if_true, h1, h2, h3, h4,
    hlc', hne, decide_false, Bool.false_eq_true, if_false]
  cases r with
  | nil =>
    obtain hd | ⟨h5, h6, h7⟩ := hr
    · obtain ⟨h0, rfl, rfl, ho, _⟩ := hd
      have hn : P.outer.isEmpty = false := by simpa using ho
      simp only [if_true, St.flushable, hn, Bool.false_and]
      exact run_cut h0
    subst h5
    simp only [Bool.false_eq_true, if_false, h6, List.isEmpty_nil]
    rw [h6] at h7
    exact run_flush (run_go (h7 _ _ hp))
  | cons c r =>
    cases fld with
    | true => exact run_read (run_go (hr _ _ hp hq' (by simp) fun hn => by simp [St.flushable, hn]))
    | false =>
      simp only [Bool.false_eq_true, if_false]
      refine run_read (run_go (hr _ _ hp hq' (fun h6 _ => ?_) fun hn => by simpa using hn))
      simp [h6]

/-- The end of an unquoted symbol. -/
theorem t_self (hq : x.quoted = false) (hcs : isCS h = false)
    (hh : handle F P.env x h { code := r.headD EOF } = .ok { ctx := x', res := .self }) (hp : Pend f as t (x'.setType none)) {qu : Bool} (hqu : qu = false → x'.quoted = false)
    (hsd : x'.selfDelim = false) (hb : r = [] → b = true) (hr : PAt F P fld f as t qu r es) : T F P fld x h false b r es := by
  intro cm cf hcf
  refine events_go ?_
  simp only [next]
  rw [onToken_read hq hcs]
  have hk : ∀ l, Run F l (onChar F ⟨P.outer, P.ty, fld, false, cm, cf, some x, .token h false⟩ x h (some { code := r.headD EOF })) r.tail es :=
    fun l => run_self ⟨rfl, rfl, rfl, rfl⟩ hh hp hqu hsd rfl hr
  cases r with
  | nil =>
    rcases hr with hd | hr
    · obtain ⟨h0, rfl, _⟩ := hd
      cases cf with
      | false => exact run_cut h0
      | true => exact run_flush (hk _)
    rw [hcf (hb rfl) hr.2.1 hr.1]
    rw [hcf (hb rfl) hr.2.1 hr.1] at hk
    exact run_flush (hk _)
  | cons c r => exact run_read (hk _)

/-- The end of a quoted symbol. -/
theorem t_selfQ {qc : Nat} (hqc : qc = 34 ∨ qc = 39) (hq : (x.quoted || q) = true) (hcs : isCS h = false)
    (hh : handle F P.env x h { code := qc } = .ok { ctx := x', res := .self }) (hp : Pend f as t (x'.setType none)) (hqu : x'.quoted = false)
    (hlc : x'.lineComment = false) (hsd : x'.selfDelim = true) (hr : PAt F P fld f as t false r es) : T F P fld x h q b (qc :: r) es := by
  intro cm cf _
  refine events_go ?_
  simp only [next]
  rw [onToken_code hq hcs]
  exact run_quote hqc fun l => run_selfQ hqc ⟨rfl, rfl, rfl, rfl⟩ hh hp hqu hlc hsd hr

/-- `::` after a symbol. -/
theorem symK_annotation (hr : r = [] → P.outer ≠ []) (h : At F P false false (childOf f (as ++ [t.regular])) false r es) : SymK F P false f as t (58 :: 58 :: r) es := by
  intro cf x hx
  refine events_go ?_
  have h1 : isWs 58 = false := by decide
  have h2 : (58 : Nat) ≠ EOF := by decide
  simp only [next, onHead, isEnd_colon, h1, h2, show (58 : Nat) ≠ 44 from by decide, decide_false, Bool.and_false, Bool.or_false, Bool.false_eq_true, if_false,
    onStart, show (58 : Nat) ≠ 47 from by decide, St.pending, Option.bind_some, hx.pending, if_true]
  refine run_read ?_
  have h3 : x.setAnnotation = .ok (dec f (as ++ [t.regular])) := by
    simp only [Ctx.setAnnotation, hx.pending, hx.value, ne_eq, not_true_eq_false, if_false, Except.ok.injEq]
    obtain ⟨e1, e2, e3, e4, e5, e6, e7⟩ := hx
    cases x
    simp_all [dec]
  have h4 : childOf f (as ++ [t.regular]) = some (dec f (as ++ [t.regular])) := by simp [childOf]
  simp only [if_true, h3]
  rw [h4] at h
  exact run_go (events_headNone (fun _ => rfl) (fun _ => ⟨rfl, rfl⟩) (fun hn h0 => absurd h0 (hr hn)) h)

/-- `:` after the field name. -/
theorem symK_field (hr : r = [] → P.outer ≠ []) (h : At F P false false (childOf (some t.regular) []) false r es) : SymK F P true none [] t (58 :: r) es := by
  intro cf x hx
  refine events_go ?_
  have h1 : isWs 58 = false := by decide
  have h2 : (58 : Nat) ≠ EOF := by decide
  simp only [next, onHead, isEnd_colon, h1, h2, show (58 : Nat) ≠ 44 from by decide, decide_false, Bool.and_false, Bool.or_false, Bool.false_eq_true, if_false,
    onStart, show (58 : Nat) ≠ 47 from by decide, St.pending, Option.bind_some, hx.pending, if_true]
  have h3 : x.setFieldName = .ok (dec (some t.regular) []) := by
    simp only [Ctx.setFieldName, hx.pending, hx.value, ne_eq, not_true_eq_false, if_false, Except.ok.injEq]
    obtain ⟨e1, e2, e3, e4, e5, e6, e7⟩ := hx
    cases x
    simp_all [dec]
  have h4 : childOf (some t.regular) [] = some (dec (some t.regular) []) := by simp [childOf]
  simp only [if_true, h3]
  rw [h4] at h
  exact run_go (events_headNone (fun _ => rfl) (fun _ => ⟨rfl, rfl⟩) (fun hn h0 => absurd h0 (hr hn)) h)
end

/-! ## Comments -/

section
variable {F : FloatText} {P : Loc} {fld dl : Bool} {x : Ctx} {r : List Nat} {es : List IonEvent} {cm : Bool} {ch : Option Ctx}
  {f : Option SymbolToken} {as : List SymbolToken} {t : Tok}

/-- What `_comment_handler` does at the end of a comment. -/
def afterComment (ret : Option H) : Res := match ret with | none => .self | some h => .imm h

/-- After a comment: `lc`, whether it was a line comment; `last`, its last character. -/
def CommentEnd (F : FloatText) (o : List Frame) (ty : Option IonType) (fld dl : Bool) (x : Ctx) (ret : Option H) (lc : Bool) (r : List Nat) (es : List IonEvent) : Prop :=
  ∀ l cm cf ch pc last, last ≠ 58 → (lc = true → last = 10 ∨ last = 13) →
    Run F l (onRes ⟨o, ty, fld, dl, cm, cf, ch, pc⟩ { x with selfDelim := true, lineComment := lc } (some last) (afterComment ret)) r es

theorem events_token {o : List Frame} {ty : Option IonType} {cf : Bool} {h : H} {c : Nat} (hq : x.quoted = false) (hcs : isCS h = false)
    (hr : Run F (some c) (onChar F ⟨o, ty, fld, dl, cm, cf, some x, .token h false⟩ x h (some { code := c })) r es) :
    Events F ⟨o, ty, fld, dl, cm, cf, some x, .token h false⟩ (c :: r) es := by
  refine events_go ?_
  simp only [next]
  rw [onToken_read hq hcs]
  exact run_read hr

theorem events_block {o : List Frame} {ty : Option IonType} (ret : Option H) (hq : x.quoted = false) (hl : x.lineComment = false) {b : List Nat} :
    ∀ {prev : Option Nat} {cm cf : Bool}, ¬ [42, 47] <:+: b → (prev = some 42 → ∀ r', b ≠ 47 :: r') → CommentEnd F o ty fld dl x ret false r es →
    Events F ⟨o, ty, fld, dl, cm, cf, some x, .token (.commentBody ret true prev) false⟩ (b ++ 42 :: 47 :: r) es := by
  induction b with
  | nil =>
    intro prev cm cf _ _ hr
    refine events_token hq rfl ?_
    have h1 : handle F (St.env ⟨o, ty, fld, dl, cm, cf, some x, .token (.commentBody ret true prev) false⟩) x (.commentBody ret true prev) { code := 42 } =
        .ok { ctx := x, res := .imm (.commentBody ret true (some 42)) } := by
      simp [handle, onComment]
    simp only [onChar, Option.getD_some, h1, onRes, Option.map_some]
    refine run_go (events_token hq rfl ?_)
    have h2 : ∀ s : St, handle F s.env x (.commentBody ret true (some 42)) { code := 47 } =
        .ok { ctx := { x with selfDelim := true, lineComment := false }, res := afterComment ret } := by
      intro s
      obtain ⟨a1, a2, a3, a4, a5, a6, a7, a8, a9, a10⟩ := x
      simp only at hl
      subst hl
      simp only [handle, onComment, afterComment, if_true, decide_true, Bool.and_self]
      cases ret <;> rfl
    simp only [onChar, Option.getD_some, h2, Option.map_some]
    exact hr _ _ _ _ _ _ (by decide) (by simp)
  | cons c b ih =>
    intro prev cm cf hb hp hr
    refine events_token hq rfl ?_
    have h0 : (decide (prev = some 42) && decide (c = 47)) = false := by
      by_cases h : prev = some 42
      · have := hp h b
        simp only [h, decide_true, Bool.true_and, decide_eq_false_iff_not]
        rintro rfl
        exact this rfl
      · simp [h]
    have h1 : handle F (St.env ⟨o, ty, fld, dl, cm, cf, some x, .token (.commentBody ret true prev) false⟩) x (.commentBody ret true prev) { code := c } =
        .ok { ctx := x, res := .imm (.commentBody ret true (some c)) } := by
      simp only [handle, onComment, if_true, h0, Bool.false_eq_true, if_false]
    simp only [onChar, Option.getD_some, h1, onRes, Option.map_some]
    refine run_go (ih (fun h => hb (h.trans (List.suffix_cons c b).isInfix)) ?_ hr)
    rintro h r' rfl
    simp only [Option.some.injEq] at h
    subst h
    exact hb ⟨[], r', rfl⟩

theorem events_line {o : List Frame} {ty : Option IonType} (ret : Option H) (hq : x.quoted = false) (hl : x.lineComment = true) {nl : Nat} (hnl : nl = 10 ∨ nl = 13) {b : List Nat}
    {prev : Option Nat} : ∀ {cm cf : Bool}, (∀ c ∈ b, c ≤ 0x10FFFF ∧ c ≠ 10 ∧ c ≠ 13) → CommentEnd F o ty fld dl x ret true r es →
    Events F ⟨o, ty, fld, dl, cm, cf, some x, .token (.commentBody ret false prev) false⟩ (b ++ nl :: r) es := by
  induction b with
  | nil =>
    intro cm cf _ hr
    refine events_token hq rfl ?_
    have h2 : ∀ s : St, handle F s.env x (.commentBody ret false prev) { code := nl } =
        .ok { ctx := { x with selfDelim := true, lineComment := true }, res := afterComment ret } := by
      intro s
      have : isNewline nl = true := by rcases hnl with rfl | rfl <;> rfl
      obtain ⟨a1, a2, a3, a4, a5, a6, a7, a8, a9, a10⟩ := x
      simp only at hl
      subst hl
      simp only [handle, onComment, afterComment, this, Bool.false_eq_true, if_false, if_true, Bool.true_or]
      cases ret <;> rfl
    simp only [onChar, Option.getD_some, h2, Option.map_some]
    exact hr _ _ _ _ _ _ (by omega) (fun _ => hnl)
  | cons c b ih =>
    intro cm cf hb hr
    obtain ⟨h3, h4, h5⟩ := hb c (by simp)
    refine events_token hq rfl ?_
    have h1 : handle F (St.env ⟨o, ty, fld, dl, cm, cf, some x, .token (.commentBody ret false prev) false⟩) x (.commentBody ret false prev) { code := c } =
        .ok { ctx := x, res := .imm (.commentBody ret false prev) } := by
      have h6 : c ≠ EOF := by simp only [EOF]; omega
      simp [handle, onComment, isNewline, h4, h5, h6]
    simp only [onChar, Option.getD_some, h1, onRes, Option.map_some]
    exact run_go (ih (fun d hd => hb d (by simp [hd])) hr)

/-- The second character of a comment, and the rest of it. -/
theorem comment_cases {cmt : List Nat} (hc : TextSpec.IsComment cmt) (r : List Nat) : ∃ c b lc, cmt ++ r = 47 :: c :: b ∧ (c = 42 ∨ c = 47) ∧
    (∀ x : Ctx, commentStart x { code := c } = .ok ({ x with lineComment := lc }, !lc)) ∧
    ∀ (F : FloatText) (es : List IonEvent) (o : List Frame) (ty : Option IonType) (fld dl : Bool) (x : Ctx) (ret : Option H) (cm cf : Bool), x.quoted = false → x.lineComment = lc →
      CommentEnd F o ty fld dl x ret lc r es → Events F ⟨o, ty, fld, dl, cm, cf, some x, .token (.commentBody ret (!lc) none) false⟩ b es := by
  cases hc with
  | block b h1 h2 =>
    refine ⟨42, b ++ 42 :: 47 :: r, false, by simp, .inl rfl, fun _ => rfl, fun F es o ty fld dl x ret cm cf hq hl hr => ?_⟩
    exact events_block ret hq hl h1 (by simp) hr
  | line b nl h1 h2 =>
    refine ⟨47, b ++ nl :: r, true, by simp, .inr rfl, fun _ => rfl, fun F es o ty fld dl x ret cm cf hq hl hr => ?_⟩
    exact events_line ret hq hl h2 h1 hr

/-- A comment, when its slash has been read: `lc`, whether it is a line comment. -/
theorem events_comment {cmt : List Nat} (hc : TextSpec.IsComment cmt) (ret : Option H) (hq : x.quoted = false) {o : List Frame} {ty : Option IonType} {cf : Bool}
    (hr : ∀ lc, CommentEnd F o ty fld dl x ret lc r es) :
    Events F ⟨o, ty, fld, dl, cm, cf, some x, .token (.comment ret) false⟩ (cmt.tail ++ r) es := by
  obtain ⟨c, b, lc, h1, h2, h3, h4⟩ := comment_cases hc r
  have h5 : cmt.tail ++ r = c :: b := by
    cases cmt with
    | nil => cases hc
    | cons d cmt => simpa using (List.cons.inj h1).2
  rw [h5]
  refine events_token hq rfl ?_
  have h6 : ∀ s : St, handle F s.env x (.comment ret) { code := c } = .ok { ctx := { x with lineComment := lc }, res := .imm (.commentBody ret (!lc) none) } := by
    intro s
    simp [handle, h3 x]
  simp only [onChar, Option.getD_some, h6, onRes, Option.map_some]
  refine run_go (h4 _ _ _ _ _ _ _ _ _ _ hq rfl ?_)
  exact hr lc

/-- A comment in an s-expression, when its slash has been read. -/
theorem events_slash {cmt : List Nat} (hc : TextSpec.IsComment cmt) (ret : Option H) (pe : Option IonEvent) (hq : x.quoted = false) {o : List Frame} {ty : Option IonType} {cf : Bool}
    (hr : ∀ lc, CommentEnd F o ty fld dl x ret lc r es) :
    Events F ⟨o, ty, fld, dl, cm, cf, some x, .token (.sexpSlash ret pe) false⟩ (cmt.tail ++ r) es := by
  obtain ⟨c, b, lc, h1, h2, h3, h4⟩ := comment_cases hc r
  have h5 : cmt.tail ++ r = c :: b := by
    cases cmt with
    | nil => cases hc
    | cons d cmt => simpa using (List.cons.inj h1).2
  have h7 := fun cf => events_comment (cm := cm) (cf := cf) hc ret hq hr
  rw [h5] at h7 ⊢
  refine events_token hq rfl ?_
  have h6 : ∀ s : St, handle F s.env x (.sexpSlash ret pe) { code := c } = .ok { unread := some c, ctx := x, res := .imm (.comment ret) } := by
    intro s
    rcases h2 with rfl | rfl <;> simp [handle, onSexpSlash, checkUnread, EOF]
  simp only [onChar, Option.getD_some, h6, onRes, Option.map_some]
  exact run_unread (run_go (h7 _))

/-! ### Between values -/

theorem commentEnd_idle {b1 b2 lc : Bool} (hcm : P.outer = [] → cm = true) (hfd : P.outer = [] → fld = false) (h : At F P fld dl none cm r es) :
    CommentEnd F P.outer P.ty fld dl { selfDelim := b1, lineComment := b2 } none lc r es := by
  intro l cm1 cf1 ch1 pc last h5 hlast
  simp only [afterComment, onRes, onSelf, Option.getD_some, Ctx.setType, if_true, h5, decide_false, Bool.false_or, Bool.not_true, Bool.false_eq_true, if_false, Option.isSome_none]
  cases fld with
  | true =>
    simp only [if_true]
    have hne : P.outer ≠ [] := fun hn => by have := hfd hn; cases this
    exact run_head (.inr ⟨rfl, lc, rfl⟩) (fun hn => absurd hn hne) (fun hn => ⟨rfl, by simp [St.flushable, hn]⟩) (fun _ hn => absurd hn hne) h
  | false =>
    simp only [Bool.false_eq_true, if_false]
    refine run_head (.inr ⟨rfl, lc, rfl⟩) (fun hn => ?_) (fun hn => ⟨by simp [hn], by simp [St.flushable, hn]⟩) (fun _ hn => hcm hn) h
    rw [hcm hn, hn]; rfl

/-- A comment between values. -/
theorem at_comment {cmt : List Nat} (hc : TextSpec.IsComment cmt) (hcm : P.outer = [] → cm = true) (hfd : P.outer = [] → fld = false) (h : At F P fld dl none cm r es) :
    At F P fld dl none cm (cmt ++ r) es := by
  have h0 : ∃ m, cmt = 47 :: m := by cases hc <;> exact ⟨_, rfl⟩
  obtain ⟨m, rfl⟩ := h0
  intro cm' cf ch' hch _ _
  refine events_go ?_
  have h1 : isEnd P.ty 47 = false := by
    rcases P with ⟨o, _ | t⟩
    · rfl
    · cases t <;> rfl
  have h2 : ∃ b1 b2, ch'.getD {} = ({ selfDelim := b1, lineComment := b2 } : Ctx) := by
    rcases hch with rfl | ⟨_, b, rfl⟩
    · exact ⟨false, false, rfl⟩
    · exact ⟨true, b, rfl⟩
  obtain ⟨b1, b2, h2⟩ := h2
  have h3 := fun lc => commentEnd_idle (b1 := b1) (b2 := b2) (lc := lc) hcm hfd h
  have h4 : onHead ⟨P.outer, P.ty, fld, dl, cm', cf, ch', .head (some 47)⟩ (some 47) =
      .go ⟨P.outer, P.ty, fld, dl, cm', false, some { selfDelim := b1, lineComment := b2 }, .token (if P.ty = some .sexp then .sexpSlash none none else .comment none) false⟩ := by
    simp only [onHead, h1, show (47 : Nat) ≠ 44 from by decide, show (47 : Nat) ≠ EOF from by decide, show isWs 47 = false from rfl, decide_false, Bool.and_false, Bool.or_false,
      Bool.false_eq_true, if_false, onStart, if_true, h2]
    by_cases hs : P.ty = some .sexp <;> simp [hs]
  simp only [next, h4]
  refine run_go ?_
  by_cases hs : P.ty = some .sexp
  · rw [if_pos hs]
    exact events_slash hc none none rfl h3
  · rw [if_neg hs]
    exact events_comment hc none rfl h3

/-- Whitespace and comments between values. -/
theorem at_trivia {w : List Nat} (hw : TextSpec.IsTrivia w) (hcm : P.outer = [] → cm = true) (hfd : P.outer = [] → fld = false) (h : At F P fld dl none cm r es) :
    At F P fld dl none cm (w ++ r) es := by
  induction hw with
  | nil => exact h
  | space c rest hc _ ih =>
    refine at_ws (by simp only [isWs, isWsNotNl, isNewline, Bool.or_eq_true, decide_eq_true_eq]; simp only [TextSpec.IsSpace] at hc; omega) (fun _ hn => hcm hn) ih
  | comment cmt rest hc _ ih =>
    rw [List.append_assoc]
    exact at_comment hc hcm hfd ih

/-- A comment after a symbol. -/
theorem pat_comment {cmt : List Nat} (hc : TextSpec.IsComment cmt) (hs : P.ty = some .sexp → ∃ e, (dec f as).symbolEvent P.outer.length t = .ok e)
    (h : PAt F P fld f as t false r es) : PAt F P fld f as t false (cmt ++ r) es := by
  have h0 : ∃ m, cmt = 47 :: m := by cases hc <;> exact ⟨_, rfl⟩
  obtain ⟨m, rfl⟩ := h0
  intro cf x hx hqu hcf _
  have hqx := hqu rfl
  refine events_go ?_
  have h1 : isEnd P.ty 47 = false := by
    rcases P with ⟨o, _ | t⟩
    · rfl
    · cases t <;> rfl
  have h3 : ∀ lc, CommentEnd F P.outer P.ty fld false x none lc r es := by
    intro lc l cm1 cf1 ch1 pc last h5 hlast
    have hx' : Pend f as t { x with selfDelim := true, lineComment := lc } := ⟨hx.1, hx.2, hx.3, hx.4, hx.5, hx.6, hx.7⟩
    have hqy : ({ x with selfDelim := true, lineComment := lc } : Ctx).quoted = false := hqx
    have hsd : ({ x with selfDelim := true, lineComment := lc } : Ctx).selfDelim = true := rfl
    have hlc : ({ x with selfDelim := true, lineComment := lc } : Ctx).lineComment = lc := rfl
    generalize ({ x with selfDelim := true, lineComment := lc } : Ctx) = y at hx' hqy hsd hlc ⊢
    have hst : y.setType none = y := by simp [Ctx.setType, hx'.ionType]
    simp only [afterComment, onRes, onSelf, Option.getD_some, hst, h5, decide_false, Bool.false_or, hsd, hlc, Bool.not_true, Bool.false_eq_true, if_false, hx'.pending, Option.isSome_some, if_true]
    cases fld with
    | true =>
      simp only [if_true]
      cases r with
      | nil =>
        obtain hd | ⟨h6, _⟩ := h
        · obtain ⟨h0, rfl, _, ho, _⟩ := hd
          have hn : P.outer.isEmpty = false := by simpa using ho
          simp only [St.flushable, hn, Bool.false_and]
          exact run_cut h0
        · cases h6
      | cons c r => exact run_read (run_go (h _ _ hx' (fun _ => hqy) (by simp) fun hn => by simp [St.flushable, hn]))
    | false =>
      simp only [Bool.false_eq_true, if_false]
      cases lc with
      | false =>
        simp only [Bool.false_eq_true, if_false]
        cases r with
        | nil =>
          obtain hd | ⟨_, h6, h7⟩ := h
          · have := hd.fld
            cases this
          rw [show P.outer.isEmpty = true from by rw [h6]; rfl]
          exact run_flush (run_go (h7 _ _ hx'))
        | cons c r => exact run_read (run_go (h _ _ hx' (fun _ => hqy) (fun h6 _ => by rw [h6]; rfl) fun hn => by simpa using hn))
      | true =>
        simp only [if_true]
        have hw : isWs last = true := by rcases hlast rfl with rfl | rfl <;> rfl
        exact run_go (pat_ws hw h _ _ hx' (fun _ => hqy) (fun h6 _ => by rw [h6]; rfl) fun hn => by simpa using hn)
  have h4 : ∃ pe, onHead ⟨P.outer, P.ty, fld, false, false, cf, some x, .head (some 47)⟩ (some 47) =
      .go ⟨P.outer, P.ty, fld, false, false, false, some x, .token (if P.ty = some .sexp then .sexpSlash none (some pe) else .comment none) false⟩ := by
    by_cases hsx : P.ty = some .sexp
    · obtain ⟨e, he⟩ := hs hsx
      rw [← symbolEvent_dec hx.fieldName hx.annotations] at he
      refine ⟨e, ?_⟩
      simp only [onHead, h1, show (47 : Nat) ≠ 44 from by decide, show (47 : Nat) ≠ EOF from by decide, show isWs 47 = false from rfl, decide_false, Bool.and_false, Bool.or_false,
        Bool.false_eq_true, if_false, onStart, if_true, Option.getD_some, hsx, show isEnd (some .sexp) 47 = false from rfl, hx.pending, hx.value, ne_eq, not_true_eq_false, he]
    · refine ⟨ION_VERSION_MARKER_EVENT, ?_⟩
      simp only [onHead, h1, show (47 : Nat) ≠ 44 from by decide, show (47 : Nat) ≠ EOF from by decide, show isWs 47 = false from rfl, decide_false, Bool.and_false, Bool.or_false,
        Bool.false_eq_true, if_false, onStart, if_true, Option.getD_some, hsx]
  obtain ⟨pe, h4⟩ := h4
  simp only [next, h4]
  refine run_go ?_
  by_cases hsx : P.ty = some .sexp
  · rw [if_pos hsx]
    exact events_slash hc none _ hqx h3
  · rw [if_neg hsx]
    exact events_comment hc none hqx h3

/-- Whitespace and comments after a symbol. -/
theorem pat_trivia {w : List Nat} (hw : TextSpec.IsTrivia w) (hs : P.ty = some .sexp → ∃ e, (dec f as).symbolEvent P.outer.length t = .ok e)
    (h : PAt F P fld f as t false r es) : PAt F P fld f as t false (w ++ r) es := by
  induction hw with
  | nil => exact h
  | space c rest hc _ ih =>
    exact pat_ws (by simp only [isWs, isWsNotNl, isNewline, Bool.or_eq_true, decide_eq_true_eq]; simp only [TextSpec.IsSpace] at hc; omega) ih
  | comment cmt rest hc _ ih =>
    rw [List.append_assoc]
    exact pat_comment hc hs ih
end

/-! ## Rejection -/

section
variable {F : FloatText} {P : Loc} {fld : Bool} {x : Ctx} {h : H} {b : Bool} {r : List Nat} {c : Nat}

/-- The text ends within a token, and the reader cannot flush it. -/
theorem run_readNil {cf : Bool} {k : Nat → Act} {l : Option Nat} (h0 : Fate.o = some .ionException) (h : cf = true → Run F (some EOF) (k EOF) [] []) :
    Run F l (.read false cf k) [] [] := by
  cases cf with
  | false => exact run_cut h0
  | true => exact run_flush (h rfl)

/-- A character that the handler rejects. -/
theorem t_err (h0 : Fate.o = some .ionException) (hq : x.quoted = false) (hcs : isCS h = false) (hh : handle F P.env x h { code := c } = .error .ionException) :
    T F P fld x h false b (c :: r) [] := by
  intro cm cf _
  refine events_go ?_
  simp only [next]
  rw [onToken_read hq hcs]
  refine run_read ?_
  have he : ∀ pc, St.env ⟨P.outer, P.ty, fld, false, cm, cf, some x, pc⟩ = P.env := fun _ => rfl
  simp only [onChar, Option.getD_some, he, hh]
  exact run_err h0

/-- The text ends, and the handler rejects that. -/
theorem t_errNil (h0 : Fate.o = some .ionException) (hq : x.quoted = false) (hcs : isCS h = false) (hh : handle F P.env x h { code := EOF } = .error .ionException) :
    T F P fld x h false b [] [] := by
  intro cm cf _
  refine events_go ?_
  simp only [next]
  rw [onToken_read hq hcs]
  have he : ∀ pc, St.env ⟨P.outer, P.ty, fld, false, cm, cf, some x, pc⟩ = P.env := fun _ => rfl
  refine run_readNil h0 fun _ => ?_
  simp only [onChar, Option.getD_some, he, hh]
  exact run_err h0

end

end Ion.TextReader

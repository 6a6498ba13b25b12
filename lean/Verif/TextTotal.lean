import Verif.TextReader
import Verif.Props.BufferQueue
set_option linter.unusedSimpArgs false
/-!
# The text reader always answers

Whatever the characters are, the container generator makes only a bounded number of steps for every character (`advance_total`).
-/
namespace Ion.TextReader
open Ion Ion.Queue

/-- The queue holds these characters, and at least `n` have been read. -/
def Has (q : BufferQueue Nat) (l : List Nat) (n : Nat) : Prop := ∃ f : Spec.Flat Nat, Rel q f ∧ f.rest = l ∧ n ≤ f.consumed.length

theorem has_empty : Has .empty [] 0 := ⟨{}, rel_empty, rfl, Nat.zero_le _⟩

theorem Has.less {q : BufferQueue Nat} {l : List Nat} {n m : Nat} (h : Has q l n) (hm : m ≤ n) : Has q l m := by
  obtain ⟨f, h1, h2, h3⟩ := h
  exact ⟨f, h1, h2, Nat.le_trans hm h3⟩

theorem Has.size {q : BufferQueue Nat} {l : List Nat} {n : Nat} (h : Has q l n) : q.size = l.length := by
  obtain ⟨f, h1, h2, _⟩ := h
  rw [h1.size, h2]

theorem Has.extend {q : BufferQueue Nat} {l : List Nat} {n : Nat} (h : Has q l n) {d : List Nat} (hd : d ≠ []) : Has (q.extend d) (l ++ d) n := by
  obtain ⟨f, h1, h2, h3⟩ := h
  obtain ⟨_, h4⟩ := rel_step h1 (.extend d) hd
  exact ⟨_, h4, by simp [Spec.Flat.step, h2], h3⟩

theorem Has.read {q : BufferQueue Nat} {c : Nat} {l : List Nat} {n : Nat} (h : Has q (c :: l) n) : ∃ q', q.readByte = .ok (c, q') ∧ Has q' l (n + 1) := by
  obtain ⟨f, h1, h2, h3⟩ := h
  obtain ⟨h4, h5⟩ := rel_step h1 .readByte trivial
  simp only [step, Spec.Flat.step, h2] at h4 h5
  cases hr : q.readByte with
  | error e => rw [hr] at h4; cases h4
  | ok p =>
    obtain ⟨c', q'⟩ := p
    rw [hr] at h4 h5
    simp only [Out.byte.injEq] at h4
    subst h4
    exact ⟨q', rfl, _, h5, by simp [Spec.Flat.advance, h2], by simp [Spec.Flat.advance, h2]; omega⟩

/-- An element is given back, right or wrong. -/
theorem Has.unread {q : BufferQueue Nat} {l : List Nat} {n : Nat} (h : Has q l (n + 1)) (c : Nat) :
    (∃ q', q.unread c = (.error .valueError, q')) ∨ ∃ q', q.unread c = (.ok (), q') ∧ Has q' (c :: l) n := by
  obtain ⟨f, h1, h2, h3⟩ := h
  have hpos : ¬ q.position < 1 := by rw [h1.pos]; omega
  have hlen : f.consumed.dropLast.length = f.consumed.length - 1 := by simp
  unfold BufferQueue.unread
  rw [if_neg hpos]
  obtain ⟨hne, hf, ho, hs, hp⟩ := h1
  by_cases h0 : q.offset = 0
  · rw [if_pos h0]
    refine .inr ⟨_, rfl, ⟨f.consumed.dropLast, c :: f.rest⟩, ⟨?_, ?_, ?_, ?_, ?_⟩, by rw [h2], by rw [hlen]; omega⟩
    · intro s hs'
      simp only [List.mem_cons] at hs'
      rcases hs' with rfl | hs'
      · simp
      · exact hne s hs'
    · simp only [h0, List.drop_zero, List.flatten_cons, List.cons_append, List.nil_append] at hf ⊢
      rw [hf]
    · simp [h0]
    · simp only [hs, List.length_cons]; omega
    · simp only [hp, hlen]; omega
  · rw [if_neg h0]
    dsimp only
    cases hseg : q.segments with
    | nil => rw [hseg] at ho; exact absurd ho h0
    | cons s segs =>
      rw [hseg] at ho hf hne
      obtain ⟨ho1, ho2⟩ := ho
      dsimp only
      have hlt : q.offset - 1 < s.length := by omega
      rw [List.getElem?_eq_getElem hlt]
      dsimp only
      by_cases hc : s[q.offset - 1] ≠ c
      · rw [if_pos hc]
        exact .inl ⟨_, rfl⟩
      · rw [if_neg hc]
        have hc : s[q.offset - 1] = c := Classical.not_not.1 hc
        refine .inr ⟨_, rfl, ⟨f.consumed.dropLast, c :: f.rest⟩, ⟨?_, ?_, ?_, ?_, ?_⟩, by rw [h2], by rw [hlen]; omega⟩
        · exact hne
        · have h5 : (s :: segs).flatten[q.offset - 1]? = some c := by
            rw [List.flatten_cons, List.getElem?_append_left hlt, List.getElem?_eq_getElem hlt, hc]
          have h6 : q.offset - 1 < (s :: segs).flatten.length := by
            rcases Nat.lt_or_ge (q.offset - 1) (s :: segs).flatten.length with h | h
            · exact h
            · rw [List.getElem?_eq_none h] at h5; cases h5
          show List.drop (q.offset - 1) _ = _
          rw [List.drop_eq_getElem_cons h6]
          rw [List.getElem?_eq_getElem h6] at h5
          rw [Option.some.inj h5]
          have : q.offset - 1 + 1 = q.offset := by omega
          rw [this, hf]
        · refine ⟨hlt, ?_⟩
          obtain ⟨t, ht⟩ := ho2
          refine ⟨t, ?_⟩
          have h7 : s.take q.offset = s.take (q.offset - 1) ++ [c] := by
            have : q.offset = (q.offset - 1) + 1 := by omega
            conv => lhs; rw [this]
            rw [List.take_succ, List.getElem?_eq_getElem hlt, hc]
            rfl
          rw [← ht, h7, ← List.append_assoc, List.dropLast_concat]
        · simp only [hs, List.length_cons]; omega
        · simp only [hp, hlen]; omega

/-! ## Steps per character -/

/-- Handlers that may give the character back have a higher rank. -/
def H.rank : H → Nat
  | .negStart | .sexpSlash _ _ | .operatorStart _ | .operatorAfter _ | .long _ _ _ _ _ | .structOrLob => 4
  | .containerStart _ => 2
  | _ => 1

/-- Steps that the generator can make without reading. -/
def St.rank (s : St) : Nat :=
  match s.pc with
  | .head none => 0
  | .head (some _) => if s.pending.isSome then 6 else 5
  | .token h _ => h.rank
  | .afterEvent _ _ none => 7
  | .afterEvent _ _ (some h) => h.rank + 1
  | .enter _ none => 1
  | .enter _ (some _) => 7
  | .resumed => 0
  | .hexLoop => 0

theorem H.rank_le (h : H) : h.rank ≤ 4 := by cases h <;> simp [H.rank]

theorem H.rank_pos (h : H) : 1 ≤ h.rank := by cases h <;> simp [H.rank]

theorem St.rank_le (s : St) : s.rank ≤ 7 := by
  unfold St.rank
  split
  · omega
  · split <;> omega
  · have := H.rank_le ‹H›; omega
  · omega
  · have := H.rank_le ‹H›; omega
  all_goals omega

theorem rank_head {s : St} {c : Nat} (h : s.pc = .head (some c)) : s.rank = if s.pending.isSome then 6 else 5 := by
  simp only [St.rank, h]

theorem rank_headNone {s : St} (h : s.pc = .head none) : s.rank = 0 := by simp only [St.rank, h]

theorem rank_token {s : St} {h : H} {q : Bool} (hp : s.pc = .token h q) : s.rank = h.rank := by simp only [St.rank, hp]

/-- A bound on the steps. -/
def bound (s : St) (l : List Nat) : Nat := 16 * l.length + s.rank

/-- All states that are entered next, at once or after an event, have a bound less than `m`. -/
def Below (m : Nat) : Act → List Nat → Prop
  | .err _, _ => True
  | .emit _ s, l => bound s l < m
  | .read _ _ k, l => ∀ c l', l = c :: l' → Below m (k c) l'
  | .unread c a, l => Below m a (c :: l)
  | .wait _, _ => True
  | .go s, l => bound s l < m

theorem below_exists (a : Act) : ∀ l, ∃ m, Below m a l := by
  induction a with
  | err e => exact fun l => ⟨0, trivial⟩
  | emit e s => exact fun l => ⟨bound s l + 1, Nat.lt_succ_self _⟩
  | read c f k ih =>
    intro l
    cases l with
    | nil => exact ⟨0, by rintro c l' ⟨⟩⟩
    | cons c l =>
      obtain ⟨m, hm⟩ := ih c l
      exact ⟨m, by rintro c l' ⟨⟩; exact hm⟩
  | unread c a ih => exact fun l => ih (c :: l)
  | wait a => exact fun l => ⟨0, trivial⟩
  | go s => exact fun l => ⟨bound s l + 1, Nat.lt_succ_self _⟩

/-- What a handler gives back it gives to a handler that does not give it back again. -/
def Settles (h : H) (r : Except PyErr Out) : Prop :=
  ∀ o, r = .ok o → o.unread = none ∨ (∃ h', o.res = .imm h' ∧ h'.rank < h.rank) ∨ ∃ e h' x, o.res = .composite e (some h') x ∧ h'.rank + 1 < h.rank

theorem settles_error {h : H} {e : PyErr} : Settles h (.error e) := by rintro o ⟨⟩
theorem settles_none {h : H} {x : Ctx} {r : Res} : Settles h (.ok { ctx := x, res := r }) := by rintro o ⟨⟩; exact .inl rfl
theorem settles_andGo {h : H} {r : Except PyErr (Ctx × H)} : Settles h (andGo r) := by
  unfold andGo
  split
  · exact settles_error
  · exact settles_none

theorem settles_andGo' {h : H} {r : Except PyErr (Ctx × H)} {u : Option Nat} (hr : ∀ x h', r = .ok (x, h') → h'.rank < h.rank) : Settles h (andGo r u) := by
  unfold andGo
  split
  · exact settles_error
  · rintro o ⟨⟩
    exact .inr (.inl ⟨_, rfl, hr _ _ rfl⟩)

theorem mkOperator_rank {c : Nat} {x y : Ctx} {h : H} (hr : mkOperator c x = .ok (y, h)) : h.rank = 1 := by
  unfold mkOperator at hr
  split at hr
  · cases hr
  · cases hr; rfl

theorem settles_thenOperator {h : H} {e : IonEvent} {c u : Nat} {x : Ctx} (hr : 3 ≤ h.rank) : Settles h (thenOperator e c x u) := by
  unfold thenOperator
  split
  · exact settles_error
  · rename_i nx h' ho
    rintro o ⟨⟩
    exact .inr (.inr ⟨_, _, _, rfl, by rw [mkOperator_rank ho]; omega⟩)

macro "settle" : tactic => `(tactic| (repeat' split) <;> first | exact settles_error | exact settles_none | exact settles_andGo)

theorem settles_endNumber {h : H} {x : Ctx} {c : Ch} {e : IonEvent} : Settles h (endNumber x c e) := by unfold endNumber; settle
theorem settles_symbolEnd {h : H} {v : Env} {c : Nat} {x : Ctx} {f : Bool} {t : Tok} : Settles h (symbolEnd v c x f t) := by unfold symbolEnd; settle

theorem settles_numeric {h : H} {F : FloatText} {v : Env} {k : NumKind} {p : Nat} {x : Ctx} {c : Ch} : Settles h (onNumeric F v k p x c) := by
  unfold onNumeric NumKind.transition
  repeat' split
  all_goals first | exact settles_error | exact settles_none | exact settles_andGo | exact settles_endNumber

theorem settles_ts {h : H} {v : Env} {s : TsState} {x : Ctx} {c : Ch} : Settles h (onTs v s x c) := by
  unfold onTs
  dsimp only
  repeat' split
  all_goals first | exact settles_error | exact settles_none | exact settles_andGo | exact settles_endNumber

theorem settles_comment {h : H} {ret : Option H} {b : Bool} {p : Option Nat} {x : Ctx} {c : Ch} : Settles h (onComment ret b p x c) := by
  unfold onComment
  dsimp only
  generalize (if b = true then decide (p = some 42) && decide (c.code = 47) else isNewline c.code || decide (c.code = EOF)) = stop
  cases stop <;> exact settles_none

theorem settles_sexpSlash {ret : Option H} {e : Option IonEvent} {x : Ctx} {c : Ch} : Settles (.sexpSlash ret e) (onSexpSlash ret e x c) := by
  unfold onSexpSlash
  split
  · exact settles_error
  · split
    · rintro o ⟨⟩
      exact .inr (.inl ⟨_, rfl, by simp [H.rank]⟩)
    · split
      · exact settles_thenOperator (by simp [H.rank])
      · exact settles_andGo' fun y h' hr => by rw [mkOperator_rank hr]; simp [H.rank]

theorem settles_long {v : Env} {f cl : Bool} {n : Nat} {d first : Bool} {x : Ctx} {c : Ch} : Settles (.long f cl n d first) (onLong v f cl n d first x c) := by
  unfold onLong
  dsimp only
  generalize (if first = true then x else { x with selfDelim := false }) = y
  split
  · settle
  · split
    · settle
    · split
      · unfold longQuotes
        dsimp only
        split
        · exact settles_error
        · split
          · exact settles_error
          · split
            · split
              · exact settles_error
              · rintro o ⟨⟩
                exact .inr (.inl ⟨_, rfl, by simp [H.rank]⟩)
            · exact settles_none
      · split
        · exact settles_none
        · unfold longAfter
          dsimp only
          settle

theorem settles_typedNull {h : H} {v : Env} {n : NullNode} {x : Ctx} {c : Ch} : Settles h (onTypedNull v n x c) := by unfold onTypedNull; settle

theorem settles_notKeyword {h : H} {v : Env} {f : Bool} {x : Ctx} {c : Nat} : Settles h (notKeyword v f x c) := by unfold notKeyword; settle

theorem settles_keyword {h : H} {v : Env} {s : KwState} {x : Ctx} {c : Ch} : Settles h (onKeyword v s x c) := by
  unfold onKeyword
  split
  · exact settles_error
  · split
    · split <;> exact settles_none
    · exact settles_notKeyword

theorem settles_notInf {h : H} {v : Env} {i : Nat} {x : Ctx} {c : Nat} : Settles h (notInf v i x c) := by unfold notInf; settle
theorem settles_inf {h : H} {v : Env} {b : Bool} {i : Nat} {x : Ctx} {c : Ch} : Settles h (onInf v b i x c) := by
  unfold onInf
  dsimp only
  repeat' split
  all_goals first | exact settles_none | exact settles_notInf

theorem settles_unquoted {h : H} {v : Env} {f : Bool} {p : Nat} {x : Ctx} {c : Ch} : Settles h (onUnquoted v f p x c) := by
  unfold onUnquoted
  repeat' split
  all_goals first | exact settles_error | exact settles_none | exact settles_symbolEnd

theorem settles_dollar {h : H} {v : Env} {s : DollarState} {x : Ctx} {c : Ch} : Settles h (onDollar v s x c) := by
  unfold onDollar dollarEnd
  dsimp only
  split
  · exact settles_none
  · split
    · split
      · exact settles_symbolEnd
      · split
        · split
          · exact settles_error
          · exact settles_symbolEnd
        · split <;> exact settles_symbolEnd
    · split
      · exact settles_none
      · split
        · exact settles_andGo
        · exact settles_none

theorem settles_short {h h' : H} {v : Env} {f cl : Bool} {x : Ctx} {c : Ch} : Settles h (onShort v f cl h' x c) := by unfold onShort; settle
theorem settles_quotedSymbol {h : H} {v : Env} {f : Bool} {x : Ctx} {c : Ch} : Settles h (onQuotedSymbol v f x c) := by
  unfold onQuotedSymbol
  repeat' split
  all_goals first | exact settles_error | exact settles_none | exact settles_symbolEnd

theorem settles_lobStart {h : H} {n : Nat} {x : Ctx} {c : Ch} : Settles h (onLobStart n x c) := by
  unfold onLobStart
  split
  · settle
  · split
    · settle
    · split
      · split
        · exact settles_error
        · settle
      · exact settles_andGo

theorem settles_blobEnd {h : H} {v : Env} {p d n : Nat} {x : Ctx} {c : Ch} : Settles h (onBlobEnd v p d n x c) := by unfold onBlobEnd lobEvent; settle
theorem settles_clobEnd {h : H} {v : Env} {p : Nat} {x : Ctx} {c : Ch} : Settles h (onClobEnd v p x c) := by unfold onClobEnd lobEvent; settle

/-- Handlers settle. -/
theorem handle_settles (F : FloatText) (v : Env) (x : Ctx) (h : H) (c : Ch) : Settles h (handle F v x h c) := by
  cases h with
  | negStart =>
    simp only [handle]
    repeat' split
    all_goals first | exact settles_error | exact settles_andGo | (rintro o ⟨⟩; exact .inr (.inl ⟨_, rfl, by simp [H.rank]⟩))
  | zeroStart => simp only [handle]; (repeat' split) <;> first | exact settles_endNumber | exact settles_andGo
  | number => simp only [handle]; (repeat' split) <;> first | exact settles_endNumber | exact settles_andGo | exact settles_none
  | slashEnd e => simp only [handle]; settle
  | numeric k p => exact settles_numeric
  | tsZero => simp only [handle]; settle
  | ts s => exact settles_ts
  | comment ret => simp only [handle]; settle
  | commentBody ret b p => exact settles_comment
  | sexpSlash ret e => exact settles_sexpSlash
  | long f cl n d first => exact settles_long
  | longSymbol e => simp only [handle]; settle
  | typedNull n => exact settles_typedNull
  | operatorStart o =>
    simp only [handle]
    split
    · exact settles_error
    · exact settles_andGo' fun y h' hr => by rw [mkOperator_rank hr]; simp [H.rank]
  | operatorAfter o =>
    simp only [handle]
    repeat' split
    all_goals first | exact settles_error | exact settles_thenOperator (by simp [H.rank])
  | keyword s => exact settles_keyword
  | inf b i => exact settles_inf
  | operator => simp only [handle]; settle
  | unquoted f p => exact settles_unquoted
  | dollar s => exact settles_dollar
  | shortString => exact settles_short
  | shortField => exact settles_short
  | shortClob => exact settles_short
  | quotedSymbol f => exact settles_quotedSymbol
  | quote1 f => simp only [handle]; settle
  | quote2 f => simp only [handle]; settle
  | structOrLob =>
    simp only [handle]
    repeat' split
    all_goals first | exact settles_error | exact settles_none | (rintro o ⟨⟩; exact .inr (.inl ⟨_, rfl, by simp [H.rank]⟩))
  | lobStart n => exact settles_lobStart
  | blobEnd p d n => exact settles_blobEnd
  | clobEnd p => exact settles_clobEnd
  | containerStart ty => simp only [handle]; settle

/-! ## The container generator -/

theorem Below.mono {m m' : Nat} (hm : m ≤ m') {a : Act} : ∀ {l : List Nat}, Below m a l → Below m' a l := by
  induction a with
  | read c f k ih => intro l h c l' hl; exact ih c (h c l' hl)
  | unread c a ih => intro l h; exact ih h
  | go s => intro l h; exact Nat.lt_of_lt_of_le h hm
  | emit e s => intro l h; exact Nat.lt_of_lt_of_le h hm
  | _ => intro l _; trivial

/-- A read, then a state. -/
theorem below_read {m : Nat} {b1 b2 : Bool} {s : Nat → St} {l : List Nat} (hm : 16 * l.length ≤ m) : Below m (.read b1 b2 fun c => .go (s c)) l := by
  rintro c l' rfl
  try dsimp only
  have := (s c).rank_le
  simp only [Below, bound, List.length_cons] at *
  omega

theorem below_onSelf {m : Nat} {s : St} {x : Ctx} {c : Nat} {l : List Nat} (hm : 16 * l.length + 7 < m) : Below m (onSelf s x c) l := by
  have hg : ∀ (s : St), Below m (.go s) l := fun s => by have := s.rank_le; simp only [Below, bound]; omega
  unfold onSelf
  dsimp only
  repeat' split
  all_goals first | exact hg _ | exact below_read (by omega)

theorem below_onRes {m : Nat} {s : St} {x : Ctx} {c : Option Nat} {r : Res} {l : List Nat} (hm : 16 * l.length + 7 < m) : Below m (onRes s x c r) l := by
  have hg : ∀ (s : St), bound s l < m := fun s => by have := s.rank_le; simp only [bound]; omega
  unfold onRes
  split
  · exact hg _
  · exact below_onSelf hm
  · split
    · trivial
    · dsimp only
      split <;> exact hg _
  · exact hg _

theorem below_onChar {F : FloatText} {m : Nat} {s : St} {x : Ctx} {h : H} {c : Option Ch} {l : List Nat} (hm : 16 * l.length + 16 + h.rank ≤ m) : Below m (onChar F s x h c) l := by
  unfold onChar
  have hs := handle_settles F s.env x h (c.getD { code := EOF })
  split
  · trivial
  · rename_i o ho
    rw [ho] at hs
    have hr := h.rank_le
    dsimp only
    cases hu : o.unread with
    | none => exact below_onRes (by omega)
    | some u =>
      rcases hs o rfl with h1 | ⟨h', h1, h2⟩ | ⟨e, h', nx, h1, h2⟩
      · rw [hu] at h1; cases h1
      · rw [h1]
        simp only [onRes, Below, bound, St.rank, List.length_cons]
        omega
      · rw [h1]
        simp only [onRes, Below, bound, St.rank, List.length_cons]
        omega

theorem below_readHex {m : Nat} {k : Nat → Act} : ∀ {n acc : Nat} {l : List Nat}, (∀ acc l', l'.length ≤ l.length → Below m (k acc) l') → Below m (readHex n acc k) l := by
  intro n
  induction n with
  | zero => intro acc l h; exact h _ _ (Nat.le_refl _)
  | succ n ih =>
    intro acc l h c l' hl
    subst hl
    show Below m (if isHex c then _ else _) l'
    split
    · exact ih fun acc l'' hl' => h acc l'' (by simp only [List.length_cons]; omega)
    · trivial

theorem below_newline {m c : Nat} {b : Bool} {k : Ch → Act} {l : List Nat} (h : ∀ c l', l'.length ≤ l.length → Below m (k c) l') : Below m (newline c b k) l := by
  unfold newline
  split
  · rintro c' l' rfl
    try dsimp only
    split
    · exact h _ _ (by simp)
    · split
      · trivial
      · exact h _ _ (Nat.le_refl _)
  · exact h _ _ (Nat.le_refl _)

theorem below_decoded {m cp : Nat} {b : Bool} {s : St} {k : Ch → Act} {l : List Nat} (hm : 16 * l.length < m) (h : ∀ c l', l'.length ≤ l.length → Below m (k c) l') : Below m (decoded cp b s k) l := by
  unfold decoded
  split
  · trivial
  · split
    · trivial
    · split
      · unfold lowEscape
        rintro c l' rfl
        try dsimp only
        split
        · rintro c' l'' rfl
          try dsimp only
          split
          · split
            · simp only [Below, bound, St.rank, List.length_cons] at *
              omega
            · refine below_readHex fun acc l3 hl3 => ?_
              split
              · exact h _ _ (by simp only [List.length_cons]; omega)
              · trivial
          · trivial
        · split <;> trivial
      · exact h _ _ (Nat.le_refl _)

theorem below_codePoint {m : Nat} {b : Bool} {s : St} {k : Ch → Act} {l : List Nat} (hm : 16 * l.length ≤ m) (h : ∀ c l', l'.length < l.length → Below m (k c) l') : Below m (codePoint b s k) l := by
  unfold codePoint
  rintro c l' rfl
  try dsimp only
  have h : ∀ c l'', l''.length ≤ l'.length → Below m (k c) l'' := fun c l'' hl => h c l'' (by simp only [List.length_cons]; omega)
  have hm : 16 * l'.length < m := by simp only [List.length_cons] at hm; omega
  split
  · trivial
  · split
    · rintro c' l'' rfl
      try dsimp only
      split
      · exact h _ _ (by simp)
      · trivial
    · split
      · unfold escapeSeq
        rintro c' l'' rfl
        try dsimp only
        have hd : ∀ (cp : Nat) (b : Bool) (l3 : List Nat), l3.length ≤ l''.length → Below m (decoded cp b s k) l3 := fun cp b l3 hl3 =>
          below_decoded (by simp only [List.length_cons] at hm; omega) fun c l4 hl4 => h c l4 (by simp only [List.length_cons]; omega)
        split
        · exact below_readHex fun acc l3 hl3 => hd _ _ _ hl3
        · split
          · exact below_readHex fun acc l3 hl3 => hd _ _ _ hl3
          · split
            · exact below_readHex fun acc l3 hl3 => hd _ _ _ hl3
            · split
              · exact h _ _ (by simp)
              · split
                · exact below_newline fun c l3 hl3 => h c l3 (by simp only [List.length_cons]; omega)
                · trivial
      · exact below_newline h

theorem below_onToken {F : FloatText} {s : St} {h : H} {q : Bool} {l : List Nat} (hp : s.pc = .token h q) : Below (bound s l) (onToken F s h q) l := by
  have hb : bound s l = 16 * l.length + h.rank := by simp [bound, rank_token hp]
  have start : ∀ ty, 2 ≤ h.rank → Below (bound s l) (onChar F s (s.child.getD {}) (.containerStart ty) none) l := by
    intro ty hr
    simp only [onChar, handle, onRes, Ctx.event]
    split
    · trivial
    · simp only [Below, hb, Option.map_none]
      simp only [bound, St.rank]
      omega
  unfold onToken
  dsimp only
  split
  · exact start _ (by simp [H.rank])
  · exact start _ (by simp [H.rank])
  · split
    · refine below_codePoint (by omega) fun c l' hl => below_onChar (by omega)
    · rintro c l' rfl
      try dsimp only
      exact below_onChar (by simp only [List.length_cons] at hb; omega)

theorem below_onClose {s : St} {c : Nat} {l : List Nat} {m : Nat} (hm : 16 * l.length < m) : Below m (onClose s c) l := by
  unfold onClose
  split
  · split
    · trivial
    · split
      · trivial
      · simp only [Below, bound, St.rank]; omega
  · split
    · split
      · trivial
      · exact below_read (by omega)
    · trivial

theorem below_onStart {s : St} {c : Nat} {l : List Nat} {m : Nat} (hm : 16 * l.length + (if s.pending.isSome then 6 else 5) ≤ m) : Below m (onStart s c) l := by
  have hm5 : 16 * l.length + 5 ≤ m := by split at hm <;> omega
  have tok : ∀ (s : St) (h : H) (b : Bool), s.pc = .token h b → Below m (.go s) l := by
    intro s h b hp
    have := h.rank_le
    simp only [Below, bound, rank_token hp]
    omega
  have hd : ∀ (s : St), s.pc = .head none → ∀ l' : List Nat, l'.length ≤ l.length → Below m (.go s) l' := by
    intro s hp l' hl
    simp only [Below, bound, rank_headNone hp]
    omega
  have out : ∀ (s' : St) (c : Nat) (t : Tok), s.pending = some t → s'.child = none → s'.pc = .head (some c) → bound s' l < m := by
    intro s' c t ht hc hp
    rw [ht] at hm
    simp only [Option.isSome_some, if_true] at hm
    simp only [bound, rank_head hp, St.pending, hc, Option.bind_none, Option.isSome_none, Bool.false_eq_true, if_false]
    omega
  unfold onStart
  dsimp only
  split
  · split
    · split
      · exact tok _ _ _ rfl
      · split
        · trivial
        · split
          · trivial
          · exact tok _ _ _ rfl
    · exact tok _ _ _ rfl
  · split
    · trivial
    · split
      · rename_i ht
        split
        · split
          · split
            · trivial
            · exact hd _ rfl _ (Nat.le_refl _)
          · rintro c' l' rfl
            try dsimp only
            split
            · split
              · trivial
              · exact hd _ rfl _ (by simp)
            · trivial
        · split
          · trivial
          · split
            · trivial
            · exact out _ c _ ht rfl rfl
      · split
        · trivial
        · exact tok _ _ _ rfl

theorem below_next {F : FloatText} {s : St} {l : List Nat} : Below (bound s l) (next F s) l := by
  unfold next
  split
  · rename_i c hp
    unfold onHead
    cases c with
    | none => exact below_read (by simp [bound])
    | some c =>
      have hb : bound s l = 16 * l.length + (if s.pending.isSome then 6 else 5) := by simp [bound, rank_head hp]
      have hb5 : 16 * l.length < bound s l := by rw [hb]; split <;> omega
      dsimp only
      split
      · split
        · rename_i ht
          split
          · trivial
          · split
            · trivial
            · split
              · trivial
              · rw [hb, ht]
                simp only [Option.isSome_some, if_true, Below, bound, St.rank, St.pending, Option.bind_none, Option.isSome_none, Bool.false_eq_true, if_false]
                omega
        · exact below_onClose hb5
      · split
        · exact below_read (by omega)
        · exact below_onStart (by omega)
  · rename_i h q hp
    exact below_onToken hp
  · rename_i c sd nxt hp
    have h1 : nxt = none → ∀ (s' : St) (c : Option Nat) (l' : List Nat), l'.length ≤ l.length → s'.pc = .head c → Below (bound s l) (.go s') l' := by
      rintro rfl s' c l' hl hp'
      have hb : bound s l = 16 * l.length + 7 := by simp [bound, St.rank, hp]
      simp only [Below, hb]
      cases c
      · simp only [bound, rank_headNone hp']; omega
      · simp only [bound, rank_head hp']; split <;> omega
    have h2 : ∀ (h : H), nxt = some h → ∀ (s' : St) (l' : List Nat), l'.length ≤ l.length → s'.pc = .token h false → Below (bound s l) (.go s') l' := by
      rintro h rfl s' l' hl hp'
      have hb : bound s l = 16 * l.length + (h.rank + 1) := by simp [bound, St.rank, hp]
      simp only [Below, hb]
      simp only [bound, rank_token hp']
      omega
    clear hp
    dsimp only
    split
    · intro c' l' hl
      have hl : l'.length ≤ l.length := by rw [hl]; simp
      cases nxt with
      | none => exact h1 rfl _ _ _ hl rfl
      | some h => exact h2 _ rfl _ _ hl rfl
    · cases nxt with
      | none => exact h1 rfl _ _ _ (Nat.le_refl _) rfl
      | some h => exact h2 _ rfl _ _ (Nat.le_refl _) rfl
  · rename_i ty c hp
    cases c <;> simp [Below, bound, St.rank, hp, St.pending]
  · exact below_read (by simp [bound])
  · rename_i hp
    rintro c l' rfl
    try dsimp only
    split
    · simp [Below, bound, St.rank, hp]
    · trivial

theorem Has.unread_ok {q q' : BufferQueue Nat} {l : List Nat} {n c : Nat} (h : Has q l n) (hu : q.unread c = (.ok (), q')) : Has q' (c :: l) 0 := by
  have h1 : Has q l 1 := by
    obtain ⟨f, h1, h2, _⟩ := h
    refine ⟨f, h1, h2, ?_⟩
    cases hc : f.consumed with
    | nil =>
      have : q.position < 1 := by rw [h1.pos, hc]; simp
      simp [BufferQueue.unread, this] at hu
    | cons _ _ => simp
  rcases h1.unread c with ⟨q'', h2⟩ | ⟨q'', h2, h3⟩
  · rw [hu] at h2; cases h2
  · rw [hu] at h2; cases h2; exact h3

/-- The text reader always gets to an event, an exception or a request for data. -/
theorem advance_total (F : FloatText) (a : Act) {q : BufferQueue Nat} {l : List Nat} {n : Nat} (hq : Has q l n) : ∃ o, advance F a q = some o := by
  have main : ∀ (m : Nat) (a : Act) (q : BufferQueue Nat) (l : List Nat), Has q l 0 → Below m a l → ∃ o, advance F a q = some o := by
    intro m
    induction m with
    | zero =>
      intro a
      induction a with
      | err e => intros; rw [advance.eq_def]; exact ⟨_, rfl⟩
      | emit e s => intros; rw [advance.eq_def]; exact ⟨_, rfl⟩
      | read b1 b2 k ih =>
        intro q l hq hb
        rw [advance.eq_def]
        dsimp only
        split
        · exact ⟨_, rfl⟩
        · cases l with
          | nil => rename_i h; exact absurd (by simpa using hq.size) h
          | cons c l =>
            obtain ⟨q', h1, h2⟩ := hq.read
            rw [h1]
            exact ih c q' l (h2.less (Nat.zero_le _)) (hb c l rfl)
      | unread c a ih =>
        intro q l hq hb
        rw [advance.eq_def]
        dsimp only
        cases hu : q.unread c with
        | mk r q' =>
          cases r with
          | error e => exact ⟨_, rfl⟩
          | ok _ => exact ih q' (c :: l) (hq.unread_ok hu) hb
      | wait a ih =>
        intros
        rw [advance.eq_def]
        dsimp only
        split <;> exact ⟨_, rfl⟩
      | go s => intro q l hq hb; exact absurd hb (Nat.not_lt_zero _)
    | succ m ih0 =>
      intro a
      induction a with
      | err e => intros; rw [advance.eq_def]; exact ⟨_, rfl⟩
      | emit e s => intros; rw [advance.eq_def]; exact ⟨_, rfl⟩
      | read b1 b2 k ih =>
        intro q l hq hb
        rw [advance.eq_def]
        dsimp only
        split
        · exact ⟨_, rfl⟩
        · cases l with
          | nil => rename_i h; exact absurd (by simpa using hq.size) h
          | cons c l =>
            obtain ⟨q', h1, h2⟩ := hq.read
            rw [h1]
            exact ih c q' l (h2.less (Nat.zero_le _)) (hb c l rfl)
      | unread c a ih =>
        intro q l hq hb
        rw [advance.eq_def]
        dsimp only
        cases hu : q.unread c with
        | mk r q' =>
          cases r with
          | error e => exact ⟨_, rfl⟩
          | ok _ => exact ih q' (c :: l) (hq.unread_ok hu) hb
      | wait a ih =>
        intros
        rw [advance.eq_def]
        dsimp only
        split <;> exact ⟨_, rfl⟩
      | go s =>
        intro q l hq hb
        rw [advance.eq_def]
        exact ih0 _ q l hq (below_next.mono (Nat.le_of_lt_succ hb))
  obtain ⟨m, hm⟩ := below_exists a l
  exact main m a q l (hq.less (Nat.zero_le _)) hm
end Ion.TextReader

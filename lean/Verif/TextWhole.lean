import Verif.TextGiven
set_option linter.unusedSimpArgs false
/-!
# The text reader does not see how a text is divided

`Path`: what the container generator does with a whole text, up to the next event, the end or the next request for data at the end of
the text.  However the text is divided, the trampolines follow this path (`loop_path`).
-/
namespace Ion.TextReader.Whole
open Ion Ion.Queue Ion.TextReader Ion.TextReader.Calm
open Ion.RawReader (Cmd)

variable {F : FloatText} {s : St} {p l : List Nat}

/-- At the top of the loop: a slash that comes next within quotes is not followed by a sharp character. -/
def HeadOk (s : St) (c : Option Nat) (p l : List Nat) : Prop := ∀ x, s.child = some x → x.quoted = true →
  (c = none → Lead p) ∧ ∀ a, c = some a → (a = 47 → NoSharp l) ∧ (isWs a = true → Lead p)

/-- The invariant of the state: `p` has been read, `l` is left. -/
def Extra (s : St) (p l : List Nat) : Prop :=
  match s.pc with
  | .head c => HeadOk s c p l
  | .token h q => Kept (s.child.getD {}) h p l ∧ (q = true → mayStart h = true)
  | .afterEvent c sd none => HeadOk s c p l ∧ (sd = true → s.child = none)
  | .afterEvent _ sd (some h) => sd = false ∧ Kept (s.child.getD {}) h p l
  | _ => True

/-- What an action gives back is what was read last. -/
def Ok : Act → List Nat → List Nat → Prop
  | .err _, _, _ => True
  | .emit e s, p, l => Real e ∧ Extra s p l
  | .read _ f k, p, l => (∀ x l', l = x :: l' → Ok (k x) (x :: p) l') ∧ (l = [] → f = true → Ok (k EOF) (EOF :: p) [])
  | .unread c a, p, l => ∃ p', p = c :: p' ∧ Ok a p' (c :: l)
  | .wait _, _, l => l = []
  | .go s, p, l => Extra s p l

theorem lead_ws {a : Nat} (h : isWs a = true) : Lead (a :: p) := by
  refine lead_cons ?_ ?_ <;> (rintro rfl; exact absurd h (by decide))

theorem headOk_next {a : Nat} (hc : ∀ x, s.child = some x → x.quoted = true → Lead p) (hf : Fine ((a :: p).reverse ++ l)) : HeadOk s (some a) (a :: p) l := by
  intro x hx hq
  refine ⟨by rintro ⟨⟩, ?_⟩
  rintro _ ⟨⟩
  exact ⟨by rintro rfl; exact lead_slash (hc x hx hq) hf, lead_ws⟩

/-- A read, then the top of the loop. -/
theorem ok_readHead {b1 b2 : Bool} {g : Nat → St} {ch : Option Ctx} (hg : ∀ a, (g a).pc = .head (some a) ∧ (g a).child = ch) (hc : ∀ x, ch = some x → x.quoted = true → Lead p)
    (hf : Fine (p.reverse ++ l)) : Ok (.read b1 b2 fun a => .go (g a)) p l := by
  have main : ∀ a l', Fine ((a :: p).reverse ++ l') → Ok (.go (g a)) (a :: p) l' := by
    intro a l' hf'
    obtain ⟨h1, h2⟩ := hg a
    simp only [Ok, Extra, h1]
    exact headOk_next (by rw [h2]; exact hc) hf'
  refine ⟨?_, ?_⟩
  · rintro a l' rfl
    exact main _ _ (fine_read hf)
  · rintro rfl _
    exact main _ _ (fine_eof hf)

theorem ok_onSelf {x : Ctx} {c : Nat} (hr : x.pending = none → x.quoted = false) (h : SelfOk c p l x) (hf : Fine (p.reverse ++ l)) : Ok (onSelf s x c) p l := by
  have hq : (x.setType none).quoted = x.quoted := by simp
  have hsd : (x.setType none).selfDelim = x.selfDelim := by unfold Ctx.setType; split <;> rfl
  have hpd : (x.setType none).pending = x.pending := by simp
  have hlc : (x.setType none).lineComment = true → x.lineComment = true := by
    unfold Ctx.setType; split
    · exact id
    · rintro ⟨⟩
  have hread : x.selfDelim = true → ∀ y, some (x.setType none) = some y → y.quoted = true → Lead p := by
    rintro hs y ⟨⟩ hy
    exact (h (hq ▸ hy)).1 hs
  have hread' : x.quoted = false → ∀ y, some (x.setType none) = some y → y.quoted = true → Lead p := by
    rintro hs y ⟨⟩ hy
    rw [hq, hs] at hy; cases hy
  have here : (c = 58 ∨ x.selfDelim = false ∨ x.lineComment = true) → ∀ (s' : St), s'.pc = .head (some c) → s'.child = some (x.setType none) → Ok (.go s') p l := by
    intro hc s' h1 h2
    simp only [Ok, Extra, h1]
    intro y hy hyq
    rw [h2] at hy
    cases hy
    obtain ⟨h3, h4, h5⟩ := h (hq ▸ hyq)
    refine ⟨by rintro ⟨⟩, ?_⟩
    rintro _ ⟨⟩
    refine ⟨fun h47 => ?_, h5⟩
    rcases h4 h47 with ⟨h6, h7⟩ | h6
    · rcases hc with hc | hc | hc
      · rw [hc] at h47; cases h47
      · rw [hc] at h6; cases h6
      · rw [hc] at h7; cases h7
    · exact h6
  unfold onSelf
  dsimp only
  split
  · split
    · rename_i hc
      simp only [Bool.or_eq_true, decide_eq_true_eq, Bool.not_eq_true', hsd] at hc
      exact here (hc.imp id .inl) _ rfl rfl
    · rename_i hc
      simp only [Bool.or_eq_true, decide_eq_true_eq, Bool.not_eq_true', hsd, not_or, Bool.not_eq_false] at hc
      exact ok_readHead (fun a => ⟨rfl, rfl⟩) (hread hc.2) hf
  · split
    · split
      · rename_i hc
        simp only [Bool.or_eq_true, Bool.not_eq_true', hsd] at hc
        exact here (.inr (hc.imp id hlc)) _ rfl rfl
      · rename_i hc
        simp only [Bool.or_eq_true, Bool.not_eq_true', hsd, not_or, Bool.not_eq_false] at hc
        exact ok_readHead (fun a => ⟨rfl, rfl⟩) (hread hc.1) hf
    · rename_i hp
      refine ok_readHead (fun a => ⟨rfl, rfl⟩) (hread' (hr ?_)) hf
      rw [hpd] at hp
      simpa using hp

theorem ok_onRes {x : Ctx} {c : Option Nat} {r : Res} (hr : r = .self → x.pending = none → x.quoted = false) (h : ResOk (c.getD 0) p l x r) (hf : Fine (p.reverse ++ l)) : Ok (onRes s x c r) p l := by
  unfold onRes
  split
  · exact ⟨h, by rintro ⟨⟩⟩
  · exact ok_onSelf (hr rfl) h hf
  · split
    · trivial
    · dsimp only
      split
      · exact ⟨h, trivial⟩
      · exact ⟨h, by rintro x ⟨⟩, fun _ => rfl⟩
  · rename_i next nx
    cases next with
    | none =>
      refine ⟨h.1, ?_, by rintro ⟨⟩⟩
      rintro y ⟨⟩ hq
      rw [h.2] at hq; cases hq
    | some h' => exact ⟨h.1, rfl, h.2⟩

theorem ok_onChar {x : Ctx} {h : H} {c : Ch} {p0 l0 : List Nat} {q : Bool} (hk : Kept x h p0 l0) (hd : Deliv p0 l0 c p l) (hs : HSafe s.outer.length x h) (hq : q = true → mayStart h = true)
    (hraw : x.quoted = false → q = false → p = c.code :: p0) (hl : ∀ e, h = .longSymbol e → ¬ (c.code = 39 ∧ ¬ c.esc))
    (hn : ∀ f cl n first, h = .long f cl n false first → c.esc = false) : Ok (onChar F s x h (some c)) p l := by
  have h1 := handle_safe (v := s.env) F hs hl hn
  have h2 := handle_good (v := s.env) F hk hd hs hq hraw
  unfold onChar
  simp only [Option.getD_some, Option.map_some]
  split
  · trivial
  · rename_i o ho
    rw [ho] at h1
    have h2 := h2 o ho
    have hrest : o.res = .self → o.ctx.pending = none → o.ctx.quoted = false := by
      intro he
      have := h1.1
      rw [he] at this
      exact this.2.2.1
    cases hu : o.unread with
    | none =>
      rw [hu] at h2
      exact ok_onRes hrest h2 hd.fine
    | some u =>
      rw [hu] at h2
      obtain ⟨p', h3, h4⟩ := h2
      refine ⟨p', h3, ok_onRes hrest h4 (fine_unread ?_)⟩
      rw [← h3]; exact hd.fine

/-! ## Code points -/

theorem deliv_raw {c : Nat} {l0 : List Nat} (hf : Fine ((c :: p).reverse ++ l)) : Deliv p l0 { code := c } (c :: p) l := by
  refine ⟨hf, ?_, ?_, ?_, ?_, ?_⟩
  · rintro _ rfl; rfl
  · intro _; rfl
  · rintro rfl; exact ⟨_, _, rfl, by decide⟩
  · intro h
    refine lead_cons ?_ ?_ <;> (rintro rfl; rcases h with h | h <;> exact absurd h (by decide))
  · rintro rfl; exact .inl rfl

/-- A code point that is not a character of the text. -/
theorem deliv_sharp {c : Ch} {a : Nat} {p' l0 : List Nat} (ha : Sharp a) (hf : Fine (p'.reverse ++ l)) (h1 : c.esc = true ∨ c.code ≠ 39)
    (h2 : c.code = 42 → ∃ a p0, p' = a :: p0 ∧ isWs a = false) (h3 : isNewline c.code = true ∨ c.code = EOF ∨ c.code = 47 → Lead p') : Deliv p (a :: l0) c p' l := by
  refine ⟨hf, ?_, ?_, h2, ?_, fun h => .inr (h3 (.inr (.inr h)))⟩
  · intro he hc
    rcases h1 with h | h
    · rw [h] at he; cases he
    · exact absurd hc h
  · intro h; exact absurd ha (h a l0 rfl)
  · rintro (h | h)
    · exact h3 (.inl h)
    · exact h3 (.inr (.inl h))

theorem ok_readHex {k : Nat → Act} : ∀ {m acc : Nat} {p l : List Nat}, Fine (p.reverse ++ l) →
    (∀ acc p' l', Fine (p'.reverse ++ l') → (m ≠ 0 → ∃ a p0, p' = a :: p0 ∧ isHex a = true) → (m = 0 → p' = p) → Ok (k acc) p' l') → Ok (readHex m acc k) p l := by
  intro m
  induction m with
  | zero => intro acc p l hf h; exact h _ _ _ hf (by simp) (by simp)
  | succ m ih =>
    intro acc p l hf h
    refine ⟨?_, by rintro _ ⟨⟩⟩
    rintro c l' rfl
    show Ok (if isHex c then _ else _) (c :: p) l'
    split
    · rename_i hc
      refine ih (fine_read hf) fun acc p' l'' hf' h1 h2 => h acc p' l'' hf' (fun _ => ?_) (by simp)
      by_cases hm : m = 0
      · rw [h2 hm]; exact ⟨_, _, rfl, hc⟩
      · exact h1 hm
    · trivial

theorem hex_lead {a : Nat} (h : isHex a = true) : isWs a = false ∧ Lead (a :: p) := by
  have h42 : a ≠ 42 := by rintro rfl; exact absurd h (by decide)
  have h47 : a ≠ 47 := by rintro rfl; exact absurd h (by decide)
  refine ⟨?_, lead_cons h42 h47⟩
  cases hw : isWs a with
  | false => rfl
  | true =>
    simp only [isWs, isWsNotNl, isNewline, Bool.or_eq_true, decide_eq_true_eq] at hw
    rcases hw with ((((h' | h') | h') | h') | (h' | h')) <;> (subst h'; exact absurd h (by decide))

theorem commonEscape_star {c : Nat} : commonEscape c ≠ some 42 := by
  unfold commonEscape
  iterate 13 refine ite_ne (by decide) ?_
  rintro ⟨⟩

theorem combine_big {c low : Nat} (hc : isHighSurrogate c) (hl : isLowSurrogate low) : 0x10000 ≤ combine c low ∧ combine c low ≠ EOF := by
  unfold isHighSurrogate at hc
  unfold isLowSurrogate at hl
  unfold combine EOF
  omega

theorem big_line {c : Nat} (h : 0x10000 ≤ c ∧ c ≠ EOF) : c ≠ 42 ∧ c ≠ 39 ∧ ¬ (isNewline c = true ∨ c = EOF ∨ c = 47) := by
  refine ⟨by omega, by omega, ?_⟩
  rintro (h1 | h1 | h1)
  · simp only [isNewline, Bool.or_eq_true, decide_eq_true_eq] at h1; omega
  · exact h.2 h1
  · omega

/-- After a backslash. -/
theorem ok_decoded {cp : Nat} {b : Bool} {k : Ch → Act} {p0 : List Nat} (h : ∀ c' p' l', Fine (p'.reverse ++ l') → c'.esc = true → (∃ a p1, p' = a :: p1 ∧ isHex a = true) → Ok (k c') p' l')
    (hp : ∃ a p1, p0 = a :: p1 ∧ isHex a = true) (hf : Fine (p0.reverse ++ l)) : Ok (decoded cp b s k) p0 l := by
  unfold decoded
  split
  · trivial
  · split
    · trivial
    · split
      · unfold lowEscape
        refine ⟨?_, by rintro _ ⟨⟩⟩
        rintro c l' rfl
        dsimp only
        split
        · refine ⟨?_, by rintro _ ⟨⟩⟩
          rintro c' l'' rfl
          dsimp only
          split
          · split
            · trivial
            · refine ok_readHex (fine_read (fine_read hf)) fun acc p' l3 hf' h1 _ => ?_
              split
              · exact h _ _ _ hf' rfl (h1 (by decide))
              · trivial
          · trivial
        · split <;> trivial
      · exact h _ _ _ hf rfl hp

theorem ok_newline {c : Nat} {b : Bool} {k : Ch → Act} (hf : Fine ((c :: p).reverse ++ l)) (h13 : ∀ c' a p' l', Fine ((a :: p').reverse ++ l') → c = 13 → c'.code = 10 → c'.esc = b → a = 10 ∨ a = 13 → Ok (k c') (a :: p') l')
    (h : c ≠ 13 → Ok (k { code := c, esc := b, nl := b }) (c :: p) l) : Ok (newline c b k) (c :: p) l := by
  unfold newline
  split
  · rename_i hc
    refine ⟨?_, by rintro _ ⟨⟩⟩
    rintro c' l' rfl
    dsimp only
    split
    · rename_i hc'
      subst hc'
      exact h13 _ _ _ _ (fine_read hf) hc rfl rfl (.inl rfl)
    · split
      · trivial
      · exact ⟨_, rfl, h13 _ _ _ _ hf hc rfl rfl (.inr hc)⟩
  · rename_i hc; exact h hc

theorem line_lead {a : Nat} (h : a = 10 ∨ a = 13) : Lead (a :: p) := by
  refine lead_cons ?_ ?_ <;> omega

theorem ok_codePoint {b : Bool} {k : Ch → Act} (hf : Fine (p.reverse ++ l)) (h : ∀ c' p' l', Deliv p l c' p' l' → (c'.esc = true ∨ c'.code ≠ 39 ∨ ∀ u l2, l = u :: l2 → u = 39) → Ok (k c') p' l') : Ok (codePoint b s k) p l := by
  unfold codePoint
  refine ⟨?_, by rintro _ ⟨⟩⟩
  rintro c l' rfl
  have hf1 := fine_read hf
  dsimp only
  split
  · trivial
  · split
    · rename_i hh
      refine ⟨?_, by rintro _ ⟨⟩⟩
      rintro low l'' rfl
      dsimp only
      split
      · rename_i hlow
        obtain ⟨h1, h2, h3⟩ := big_line (combine_big hh hlow)
        exact h _ _ _ (deliv_sharp (.inr (.inr hh)) (fine_read hf1) (.inr h2) (fun hc => absurd hc h1) (fun hc => absurd hc h3)) (.inr (.inl h2))
      · trivial
    · split
      · rename_i h92
        subst h92
        unfold escapeSeq
        refine ⟨?_, by rintro _ ⟨⟩⟩
        rintro c' l'' rfl
        have hf2 := fine_read hf1
        dsimp only
        have hesc : ∀ (c3 : Ch) (p' l3 : List Nat), Fine (p'.reverse ++ l3) → c3.esc = true → (∃ a p1, p' = a :: p1 ∧ isHex a = true) → Ok (k c3) p' l3 := by
          rintro c3 _ l3 hf3 he ⟨a, p1, rfl, ha⟩
          exact h _ _ _ (deliv_sharp (.inr (.inl rfl)) hf3 (.inl he) (fun _ => ⟨_, _, rfl, (hex_lead (p := p1) ha).1⟩) (fun _ => (hex_lead ha).2)) (.inl he)
        split
        · exact ok_readHex hf2 fun acc p' l3 hf3 h1 _ => ok_decoded hesc (h1 (by decide)) hf3
        · split
          · exact ok_readHex hf2 fun acc p' l3 hf3 h1 _ => ok_decoded hesc (h1 (by decide)) hf3
          · split
            · exact ok_readHex hf2 fun acc p' l3 hf3 h1 _ => ok_decoded hesc (h1 (by decide)) hf3
            · split
              · rename_i cp hcp
                refine h _ _ _ (deliv_sharp (.inr (.inl rfl)) hf2 (.inl rfl) (fun h42 => ?_) (fun _ => ?_)) (.inl rfl)
                · dsimp only at h42; rw [h42] at hcp; exact absurd hcp commonEscape_star
                · refine lead_two (.inl ?_) (by decide)
                  rintro rfl; rw [show commonEscape 42 = none from by decide] at hcp; cases hcp
              · split
                · rename_i hnl
                  have hnl' : c' = 10 ∨ c' = 13 := by
                    simp only [isNewline, Bool.or_eq_true, decide_eq_true_eq] at hnl; omega
                  refine ok_newline hf2 (fun c3 a p' l3 hf3 _ hc hesc' ha => ?_) (fun _ => ?_)
                  · refine h _ _ _ (deliv_sharp (.inr (.inl rfl)) hf3 (.inl hesc') (fun h42 => ?_) (fun _ => line_lead ha)) (.inl hesc')
                    rw [hc] at h42; cases h42
                  · refine h _ _ _ (deliv_sharp (.inr (.inl rfl)) hf2 (.inl rfl) (fun h42 => ?_) (fun _ => line_lead hnl')) (.inl rfl)
                    dsimp only at h42; omega
                · trivial
      · refine ok_newline hf1 (fun c3 a p' l3 hf3 h13 hc hesc' ha => ?_) (fun _ => h _ _ _ (deliv_raw hf1) ?_)
        · subst h13
          refine h _ _ _ (deliv_sharp (.inl rfl) hf3 (.inr (by rw [hc]; decide)) (fun h42 => ?_) (fun _ => line_lead ha)) (.inr (.inl (by rw [hc]; decide)))
          rw [hc] at h42; cases h42
        · by_cases h39 : c = 39
          · exact .inr (.inr (by rintro u l2 ⟨⟩; exact h39))
          · exact .inr (.inl h39)

/-! ## The container generator -/

theorem ok_onToken {h : H} {q : Bool} (hs : StSafe { s with pc := .token h q } l) (hx : Extra { s with pc := .token h q } p l) (hf : Fine (p.reverse ++ l)) : Ok (onToken F s h q) p l := by
  obtain ⟨_, h1, h2, h3⟩ := hs
  obtain ⟨hk, hq⟩ := hx
  dsimp only at h1 hk
  have start : ∀ ty, Ok (onChar F s (s.child.getD {}) (.containerStart ty) none) p l := by
    intro ty
    simp only [onChar, handle, onRes]
    split
    · trivial
    · split
      · exact ⟨rfl, trivial⟩
      · exact ⟨rfl, by rintro x ⟨⟩, fun _ => rfl⟩
  unfold onToken
  dsimp only
  split
  · exact start _
  · exact start _
  · split
    · rename_i hq'
      refine ok_codePoint hf fun c p' l' hd hc => ok_onChar hk hd h1 hq ?_ (fun e hh => ?_) (fun f cl m first hh => ?_)
      · intro hx1 hx2
        rw [hx1, hx2] at hq'; cases hq'
      · obtain ⟨u, l2, rfl, hu⟩ := h3 e hh
        rintro ⟨hc1, hc2⟩
        rcases hc with hc | hc | hc
        · exact hc2 hc
        · exact hc hc1
        · exact hu (hc u l2 rfl)
      · subst hh
        have hquoted : (s.child.getD {}).quoted = false := by
          cases f with
          | true => exact h1.2.2.2 rfl
          | false => exact h1 rfl
        rw [hquoted, Bool.false_or] at hq'
        exact absurd rfl (h2 hq' f cl m false first)
    · refine ⟨?_, ?_⟩
      · rintro c l' rfl
        refine ok_onChar hk (deliv_raw (fine_read hf)) h1 hq (fun _ _ => rfl) (fun e hh => ?_) (fun f cl m first hh => rfl)
        obtain ⟨u, l2, hl, hu⟩ := h3 e hh
        cases hl
        rintro ⟨hc, _⟩
        exact hu hc
      · rintro rfl _
        refine ok_onChar hk (deliv_raw (fine_eof hf)) h1 hq (fun _ _ => rfl) (fun e hh => ?_) (fun f cl m first hh => rfl)
        obtain ⟨u, l2, hl, hu⟩ := h3 e hh
        cases hl

theorem ok_onClose {c : Nat} (ha : AtRest s) (hp : s.pending = none) (hc : isEnd s.ty c = true ∨ c = 44 ∨ c = EOF) (ho : Over (some c) l) (hf : Fine (p.reverse ++ l)) : Ok (onClose s c) p l := by
  have hch : ∀ x, s.child = some x → x.quoted = true → Lead p := by
    intro x hx hq
    have h1 := (ha x hx).1.2.2.1 (by simpa [St.pending, hx] using hp)
    rw [h1] at hq; cases hq
  unfold onClose
  split
  · split
    · trivial
    · split
      · trivial
      · exact ⟨rfl, trivial⟩
  · rename_i hi
    split
    · split
      · trivial
      · exact ok_readHead (fun a => ⟨rfl, rfl⟩) hch hf
    · rename_i h44
      have : c = EOF := by
        rcases hc with h | h | h
        · exact absurd h hi
        · exact absurd h h44
        · exact h
      subst this
      exact ho rfl

theorem mkShort_starts {x y : Ctx} {f : Bool} {h : H} (hr : mkShort x f = .ok (y, h)) : mayStart h = true := by
  unfold mkShort at hr
  dsimp only at hr
  repeat' split at hr
  all_goals cases hr
  all_goals rfl

theorem fieldTable_starts {v : Env} {c : Nat} {x y : Ctx} {h : H} (hr : fieldTable v c x = .ok (y, h)) (hc : c = 34 ∨ c = 39) : mayStart h = true := by
  unfold fieldTable at hr
  rcases hc with rfl | rfl
  · exact mkShort_starts hr
  · cases hr; rfl

theorem valueTable_starts {v : Env} {c : Nat} {x y : Ctx} {h : H} (hr : valueTable v c x = .ok (y, h)) (hc : c = 34 ∨ c = 39) : mayStart h = true := by
  unfold valueTable at hr
  rcases hc with rfl | rfl
  · exact mkShort_starts hr
  · cases hr; rfl

theorem ok_onStart {c : Nat} (ha : AtRest s) (hh : HeadOk s (some c) p l) (hf : Fine (p.reverse ++ l)) : Ok (onStart s c) p l := by
  have hx : Rest s.outer.length (s.child.getD {}) := by
    cases hch : s.child with
    | none => exact rest_empty
    | some x => exact (ha x hch).1
  have hslash : c = 47 → (s.child.getD {}).quoted = true → NoSharp l := by
    intro h47 hq
    cases hch : s.child with
    | none => rw [hch] at hq; cases hq
    | some x =>
      rw [hch] at hq
      exact ((hh x hch hq).2 c rfl).1 h47
  unfold onStart
  dsimp only
  split
  · rename_i h47
    split
    · cases hp : (s.child.getD {}).pending with
      | none => exact ⟨kept_quote rfl ⟨by rintro h ⟨⟩, by rintro e ⟨⟩⟩ (hslash h47), by rintro ⟨⟩⟩
      | some t =>
        dsimp only
        split
        · trivial
        · split
          · trivial
          · rename_i e he
            exact ⟨kept_quote rfl ⟨by rintro h ⟨⟩, by rintro e ⟨⟩; exact real_symbol he⟩ (hslash h47), by rintro ⟨⟩⟩
    · exact ⟨kept_quote rfl (by rintro h ⟨⟩) trivial, by rintro ⟨⟩⟩
  · split
    · trivial
    · have table : (s.pending = none) → Ok (match (if s.isField = true then fieldTable s.env c (if decorated s.child = true then s.child.getD {} else {}) else
            valueTable s.env c (if decorated s.child = true then s.child.getD {} else {})) with
          | .error err => .err err
          | .ok (x, h) => .go { s with canFlush := !s.isField, child := some x, pc := .token h (decide (c = 34) || decide (c = 39)) }) p l := by
        intro hpend
        have hb : (if decorated s.child = true then s.child.getD {} else {}).quoted = false := by
          split
          · cases hch : s.child with
            | none => rfl
            | some x => exact (ha x hch).1.2.2.1 (by simpa [St.pending, hch] using hpend)
          · rfl
        have hq : (decide (c = 34) || decide (c = 39)) = true → c = 34 ∨ c = 39 := by simp
        cases hfi : s.isField with
        | true =>
          simp only [if_true]
          split
          · trivial
          · rename_i y h' he'
            exact ⟨made_field hb _ _ he' _ _, fun h => fieldTable_starts he' (hq h)⟩
        | false =>
          simp only [Bool.false_eq_true, if_false]
          split
          · trivial
          · rename_i y h' he'
            exact ⟨made_value hb _ _ he' _ _, fun h => valueTable_starts he' (hq h)⟩
      cases hch : s.child with
      | none =>
        have := table (by simp [St.pending, hch])
        simp only [hch] at this
        exact this
      | some x =>
        obtain ⟨hr, ht⟩ := ha x hch
        cases hp : x.pending with
        | none =>
          have := table (by simp [St.pending, hch, hp])
          simp only [hch] at this
          simp only [St.pending, hch, Option.bind_some, hp]
          exact this
        | some t =>
          simp only [St.pending, hch, Option.bind_some, hp]
          split
          · split
            · simp only [Ctx.setFieldName, hp, hr.1, ne_eq, not_true_eq_false, if_false]
              rintro y ⟨⟩ ⟨⟩
            · refine ⟨?_, by rintro _ ⟨⟩⟩
              rintro c' l' rfl
              dsimp only
              split
              · simp only [Ctx.setAnnotation, hp, hr.1, ne_eq, not_true_eq_false, if_false]
                rintro y ⟨⟩ ⟨⟩
              · trivial
          · split
            · trivial
            · split
              · trivial
              · rename_i e he
                exact ⟨real_symbol he, by rintro x ⟨⟩⟩

theorem ok_onHead {c : Option Nat} (ha : AtRest s) (ho : Over c l) (hh : HeadOk s c p l) (hf : Fine (p.reverse ++ l)) : Ok (onHead s c) p l := by
  unfold onHead
  cases c with
  | none => exact ok_readHead (fun a => ⟨rfl, rfl⟩) (fun x hx hq => (hh x hx hq).1 rfl) hf
  | some c =>
    dsimp only
    split
    · rename_i hcond
      have hcl : isEnd s.ty c = true ∨ c = 44 ∨ c = EOF := by
        simp only [Bool.or_eq_true, Bool.and_eq_true, decide_eq_true_eq] at hcond
        rcases hcond with (h | h) | h
        · exact .inl h
        · exact .inr (.inl h.2)
        · exact .inr (.inr h)
      cases hch : s.child with
      | none => exact ok_onClose ha (by simp [St.pending, hch]) hcl ho hf
      | some x =>
        cases hp : x.pending with
        | none =>
          simp only [St.pending, hch, Option.bind_some, hp]
          exact ok_onClose ha (by simp [St.pending, hch, hp]) hcl ho hf
        | some t =>
          simp only [St.pending, hch, Option.bind_some, hp]
          split
          · trivial
          · split
            · trivial
            · split
              · trivial
              · rename_i e he
                exact ⟨real_symbol he, by rintro x ⟨⟩⟩
    · split
      · rename_i hw
        exact ok_readHead (fun a => ⟨rfl, rfl⟩) (fun x hx hq => ((hh x hx hq).2 c rfl).2 hw) hf
      · exact ok_onStart ha hh hf

/-- From every state on, what is given back is what was read last. -/
theorem ok_next (h : StSafe s l) (hx : Extra s p l) (hf : Fine (p.reverse ++ l)) : Ok (next F s) p l := by
  unfold next
  cases hp : s.pc with
  | head c =>
    obtain ⟨h1, h2⟩ := h
    rw [hp] at h2
    simp only [Extra, hp] at hx
    exact ok_onHead h2.1 h2.2 hx hf
  | token h' q =>
    have hs : s = { s with pc := .token h' q } := by cases s; simp_all
    exact ok_onToken (by rw [← hs]; exact h) (by rw [← hs]; exact hx) hf
  | afterEvent c sd nxt =>
    simp only [Extra, hp] at hx
    dsimp only
    cases nxt with
    | none =>
      obtain ⟨hx1, hx2⟩ := hx
      split
      · rename_i hsd
        exact ok_readHead (fun a => ⟨rfl, rfl⟩) (ch := s.child) (fun x hx hq => by rw [hx2 hsd] at hx; cases hx) hf
      · exact hx1
    | some h' =>
      obtain ⟨rfl, hx2⟩ := hx
      exact ⟨hx2, by rintro ⟨⟩⟩
  | enter ty c => exact fun x hx => by cases hx
  | resumed =>
    obtain ⟨h1, h2⟩ := h
    rw [hp] at h2
    have h2 : s.child = none := h2
    exact ok_readHead (fun a => ⟨rfl, rfl⟩) (ch := s.child) (fun x hx hq => by rw [h2] at hx; cases hx) hf
  | hexLoop =>
    refine ⟨?_, by rintro _ ⟨⟩⟩
    rintro c l' rfl
    dsimp only
    split
    · simp only [Ok, Extra, hp]
    · trivial

end Ion.TextReader.Whole

import Verif.TextReader
set_option linter.unusedSimpArgs false
/-!
# The text reader says `STREAM_END` at the top level only

While data is needed inside a container, the reader answers `INCOMPLETE`: the flag `complete` is only set when no container is open.
-/
namespace Ion.TextReader
open Ion

/-- The flag of the state is set at the top level only; some states set it anew. -/
def Level (s : St) : Prop :=
  match s.pc with
  | .afterEvent _ _ _ | .resumed | .enter _ _ => True
  | _ => s.complete = true → s.outer = []

/-- All requests for data of an action: when the flag is set, `P` holds. -/
def Lvl (P : Prop) : Act → Prop
  | .err _ => True
  | .emit _ s => Level s
  | .read c _ k => (c = true → P) ∧ ∀ x, Lvl P (k x)
  | .unread _ a => Lvl P a
  | .wait _ => True
  | .go s => Level s

variable {P : Prop} {F : FloatText} {s : St}

theorem lvl_readHead {b1 b2 : Bool} {g : Nat → St} (hb : b1 = true → P) (hg : ∀ c, Level (g c)) : Lvl P (.read b1 b2 fun c => .go (g c)) := ⟨hb, hg⟩

theorem lvl_onSelf {x : Ctx} {c : Nat} (hp : s.outer = [] → P) : Lvl P (onSelf s x c) := by
  unfold onSelf
  dsimp only
  split
  · split
    · rintro ⟨⟩
    · exact ⟨(by rintro ⟨⟩), fun c => by rintro ⟨⟩⟩
  · split
    · split
      · rintro ⟨⟩
      · exact ⟨(by rintro ⟨⟩), fun c => by rintro ⟨⟩⟩
    · refine ⟨fun h => hp ?_, fun c h => ?_⟩
      all_goals
        simp only [Bool.and_eq_true, List.isEmpty_iff] at h
        exact h.1.2

theorem lvl_onRes {x : Ctx} {c : Option Nat} {r : Res} (hs : s.complete = true → s.outer = []) (hp : s.outer = [] → P) : Lvl P (onRes s x c r) := by
  unfold onRes
  split
  · exact hs
  · exact lvl_onSelf hp
  · split
    · trivial
    · dsimp only
      split <;> trivial
  · trivial

theorem lvl_onChar {x : Ctx} {h : H} {c : Option Ch} (hs : s.complete = true → s.outer = []) (hp : s.outer = [] → P) : Lvl P (onChar F s x h c) := by
  unfold onChar
  split
  · trivial
  · dsimp only
    split
    · exact lvl_onRes hs hp
    · exact lvl_onRes hs hp

theorem lvl_readHex {n : Nat} {k : Nat → Act} (hk : ∀ a, Lvl P (k a)) : ∀ {acc : Nat}, Lvl P (readHex n acc k) := by
  induction n with
  | zero => intro acc; exact hk _
  | succ n ih =>
    intro acc
    refine ⟨(by rintro ⟨⟩), fun c => ?_⟩
    dsimp only
    split
    · exact ih
    · trivial

theorem lvl_newline {c : Nat} {b : Bool} {k : Ch → Act} (hk : ∀ a, Lvl P (k a)) : Lvl P (newline c b k) := by
  unfold newline
  split
  · refine ⟨(by rintro ⟨⟩), fun c => ?_⟩
    dsimp only
    repeat' split
    all_goals first | exact hk _ | trivial
  · exact hk _

theorem lvl_decoded {cp : Nat} {b : Bool} {k : Ch → Act} (hs : s.complete = true → s.outer = []) (hk : ∀ a, Lvl P (k a)) : Lvl P (decoded cp b s k) := by
  unfold decoded
  split
  · trivial
  · split
    · trivial
    · split
      · refine ⟨(by rintro ⟨⟩), fun c => ?_⟩
        dsimp only
        split
        · refine ⟨(by rintro ⟨⟩), fun c => ?_⟩
          dsimp only
          split
          · split
            · exact hs
            · refine lvl_readHex fun a => ?_
              split
              · exact hk _
              · trivial
          · trivial
        · split <;> trivial
      · exact hk _

theorem lvl_codePoint {b : Bool} {k : Ch → Act} (hs : s.complete = true → s.outer = []) (hk : ∀ a, Lvl P (k a)) : Lvl P (codePoint b s k) := by
  refine ⟨(by rintro ⟨⟩), fun c => ?_⟩
  dsimp only
  split
  · trivial
  · split
    · refine ⟨(by rintro ⟨⟩), fun c => ?_⟩
      dsimp only
      split
      · exact hk _
      · trivial
    · split
      · refine ⟨(by rintro ⟨⟩), fun c => ?_⟩
        dsimp only
        split
        · exact lvl_readHex fun a => lvl_decoded hs hk
        · split
          · exact lvl_readHex fun a => lvl_decoded hs hk
          · split
            · exact lvl_readHex fun a => lvl_decoded hs hk
            · split
              · exact hk _
              · split
                · exact lvl_newline hk
                · trivial
      · exact lvl_newline hk

theorem lvl_onToken {h : H} {q : Bool} (hs : s.complete = true → s.outer = []) (hp : s.outer = [] → P) : Lvl P (onToken F s h q) := by
  unfold onToken
  dsimp only
  split
  · exact lvl_onChar hs hp
  · exact lvl_onChar hs hp
  · split
    · exact lvl_codePoint hs fun c => lvl_onChar hs hp
    · exact ⟨(by rintro ⟨⟩), fun c => lvl_onChar hs hp⟩

theorem lvl_onClose {c : Nat} (hs : s.complete = true → s.outer = []) (hp : s.outer = [] → P) : Lvl P (onClose s c) := by
  unfold onClose
  split
  · split
    · trivial
    · split <;> trivial
  · split
    · split
      · trivial
      · exact ⟨fun h => hp (hs h), fun c => hs⟩
    · trivial

theorem lvl_onStart {c : Nat} (hs : s.complete = true → s.outer = []) : Lvl P (onStart s c) := by
  unfold onStart
  dsimp only
  repeat' split
  all_goals first
    | trivial
    | exact hs
    | skip
  all_goals
    refine ⟨(by rintro ⟨⟩), fun c => ?_⟩
    dsimp only
    repeat' split
    all_goals first
      | trivial
      | exact hs

theorem lvl_onHead {c : Option Nat} (hs : s.complete = true → s.outer = []) (hp : s.outer = [] → P) : Lvl P (onHead s c) := by
  unfold onHead
  split
  · exact ⟨fun h => hp (hs h), fun c => hs⟩
  · split
    · split
      · split
        · trivial
        · split
          · trivial
          · split
            · trivial
            · exact hs
      · exact lvl_onClose hs hp
    · split
      · exact ⟨fun h => hp (hs h), fun c => hs⟩
      · exact lvl_onStart hs

/-- From a state on, the flag is set at the top level only. -/
theorem lvl_next (h : Level s) (hp : (∀ ty c, s.pc ≠ .enter ty c) → s.outer = [] → P) : Lvl P (next F s) := by
  unfold next
  cases hpc : s.pc with
  | head c =>
    simp only [Level, hpc] at h
    exact lvl_onHead h (hp (by rw [hpc]; rintro ty c ⟨⟩))
  | token h' q =>
    simp only [Level, hpc] at h
    exact lvl_onToken h (hp (by rw [hpc]; rintro ty c ⟨⟩))
  | afterEvent c sd nxt =>
    have hp := hp (by rw [hpc]; rintro ty c ⟨⟩)
    have he : s.outer.isEmpty = true → s.outer = [] := List.isEmpty_iff.1
    dsimp only
    split
    · refine ⟨fun h => hp (he h), fun c => ?_⟩
      cases nxt <;> exact he
    · cases nxt <;> exact he
  | enter ty c => exact fun h => by cases h
  | resumed =>
    have hp := hp (by rw [hpc]; rintro ty c ⟨⟩)
    have he : s.outer.isEmpty = true → s.outer = [] := List.isEmpty_iff.1
    exact ⟨fun h => hp (he h), fun c => he⟩
  | hexLoop =>
    refine ⟨(by rintro ⟨⟩), fun c => ?_⟩
    dsimp only
    split
    · exact h
    · trivial

end Ion.TextReader

import Verif.TextPathsLoad
import Verif.TextCalls
import Verif.ManagedNesting
set_option linter.unusedSimpArgs false
/-!
# What `load` has read when it returns

`Whole` says what it means that the events of a stream are complete.
-/
namespace Ion.Spec
open Ion

/-- `Whole es n`: these are (the types of) the events of `n` complete values, and nothing else. -/
inductive Whole : List IonEventType → Nat → Prop
  | nil : Whole [] 0
  | scalar {es : List IonEventType} {n : Nat} : Whole es n → Whole (.scalar :: es) (n + 1)
  | container {inner es : List IonEventType} {m n : Nat} : Whole inner m → Whole es n → Whole (.containerStart :: (inner ++ .containerEnd :: es)) (n + 1)

end Ion.Spec

namespace Ion.Simple
open Ion Ion.Spec

/-- What `_load` has read: complete values, and possibly events that are neither values nor `t`, the type of the event that ends the sequence. -/
inductive WholeTo : IonEventType → List IonEventType → Nat → Prop
  | nil {t : IonEventType} : WholeTo t [] 0
  | scalar {t : IonEventType} {es : List IonEventType} {n : Nat} : WholeTo t es n → WholeTo t (.scalar :: es) (n + 1)
  | container {t : IonEventType} {inner es : List IonEventType} {m n : Nat} : WholeTo .containerEnd inner m → WholeTo t es n → WholeTo t (.containerStart :: (inner ++ .containerEnd :: es)) (n + 1)
  | other {t x : IonEventType} {es : List IonEventType} {n : Nat} : x ≠ t → x ≠ .scalar → x ≠ .containerStart → WholeTo t es n → WholeTo t (x :: es) n

open Ion.ManagedReader (Event Context Handler thunkEvent react)
open Ion.RawReader (Cmd)

section
variable {R : Type} {step : R → Cmd → Option (Except PyErr Event × R)}

theorem Delivers.append {a b c : Source R} {es es' : List Event} (h : Delivers step a es b) (h' : Delivers step b es' c) : Delivers step a (es ++ es') c := by
  induction h with
  | nil => exact h'
  | cons _ _ _ _ _ h1 _ ih => exact .cons _ _ _ _ _ h1 (ih h')

theorem add_list {l : List PyObj} {e : Event} {o : PyObj} {out : Out} (h : (Out.list l).add e o = .ok out) : out = .list (l ++ [o]) := by
  simp only [Out.add, Except.ok.injEq] at h
  exact h.symm

/-- `_load` returns after complete values. -/
theorem loop_whole {ty : IonEventType} {out : Out} {src : Source R} {r : Except PyErr (Out × Source R)} (h : loadLoop step ty out src = some r) (ht : ty ≠ .scalar ∧ ty ≠ .containerStart) : ∀ out' src', r = .ok (out', src') →
    ∃ es src1 e n, Delivers step src es src1 ∧ nextEvent step src1 = some (.ok e, src') ∧ e.eventType = ty ∧ WholeTo ty (es.map (·.eventType)) n ∧
      (∀ l, out = .list l → ∃ l', out' = .list (l ++ l') ∧ l'.length = n) := by
  refine loadLoop.partial_correctness step (fun ty out src r => (ty ≠ .scalar ∧ ty ≠ .containerStart) → ∀ out' src', r = .ok (out', src') →
    ∃ es src1 e n, Delivers step src es src1 ∧ nextEvent step src1 = some (.ok e, src') ∧ e.eventType = ty ∧ WholeTo ty (es.map (·.eventType)) n ∧
      (∀ l, out = .list l → ∃ l', out' = .list (l ++ l') ∧ l'.length = n)) ?_ ty out src r h ht
  rintro f ih ty out src r h ht out' src' rfl
  simp only [bind, Option.bind_eq_some_iff] at h
  obtain ⟨⟨y, t⟩, h1, h2⟩ := h
  cases y with
  | error err => cases h2
  | ok e =>
    dsimp only at h2
    by_cases c1 : e.eventType = ty
    · rw [if_pos c1] at h2
      cases h2
      exact ⟨[], src, e, 0, .nil _, h1, c1, .nil, fun l hl => ⟨[], by simp [hl], rfl⟩⟩
    · rw [if_neg c1] at h2
      by_cases c2 : e.eventType = .containerStart
      · rw [if_pos c2] at h2
        cases hc : newContainer e with
        | error err => rw [hc] at h2; cases h2
        | ok c =>
          rw [hc] at h2
          dsimp only at h2
          rw [Option.bind_eq_some_iff] at h2
          obtain ⟨z, h6, h7⟩ := h2
          cases z with
          | error err => cases h7
          | ok p =>
            obtain ⟨out1, src2⟩ := p
            obtain ⟨es1, src3, e1, n1, d1, d2, d3, d4, _⟩ := ih _ _ _ _ h6 ⟨by decide, by decide⟩ _ _ rfl
            dsimp only at h7
            cases ha : out.add e (out1.obj c.2.1 c.2.2) with
            | error err => rw [ha] at h7; cases h7
            | ok out2 =>
              rw [ha] at h7
              obtain ⟨es2, src4, e2, n2, g1, g2, g3, g4, g5⟩ := ih _ _ _ _ h7 ht _ _ rfl
              refine ⟨e :: (es1 ++ e1 :: es2), src4, e2, n2 + 1, .cons _ _ _ _ _ h1 (d1.append (.cons _ _ _ _ _ d2 g1)), g2, g3, ?_, ?_⟩
              · simp only [List.map_cons, List.map_append, c2, d3]
                exact .container d4 g4
              · rintro l rfl
                obtain ⟨l', h8, h9⟩ := g5 _ (add_list ha)
                exact ⟨out1.obj c.2.1 c.2.2 :: l', by simp [h8], by simp [h9]⟩
      · rw [if_neg c2] at h2
        by_cases c3 : e.eventType = .scalar
        · rw [if_pos c3] at h2
          cases hc : scalarObj e with
          | error err => rw [hc] at h2; cases h2
          | ok v =>
            rw [hc] at h2
            dsimp only at h2
            cases ha : out.add e v with
            | error err => rw [ha] at h2; cases h2
            | ok out2 =>
              rw [ha] at h2
              obtain ⟨es2, src4, e2, n2, g1, g2, g3, g4, g5⟩ := ih _ _ _ _ h2 ht _ _ rfl
              refine ⟨e :: es2, src4, e2, n2 + 1, .cons _ _ _ _ _ h1 g1, g2, g3, ?_, ?_⟩
              · simp only [List.map_cons, c3]
                exact .scalar g4
              · rintro l rfl
                obtain ⟨l', h8, h9⟩ := g5 _ (add_list ha)
                exact ⟨v :: l', by simp [h8], by simp [h9]⟩
        · rw [if_neg c3] at h2
          obtain ⟨es2, src4, e2, n2, g1, g2, g3, g4, g5⟩ := ih _ _ _ _ h2 ht _ _ rfl
          exact ⟨e :: es2, src4, e2, n2, .cons _ _ _ _ _ h1 g1, g2, g3, .other c1 c3 c2 g4, g5⟩

/-- `load` returns after complete values. -/
theorem from_whole {single : Bool} {src : Source R} {vs : List PyObj} (h : loadFrom step single src = some (.ok vs)) :
    ∃ es src1 e src2, Delivers step src es src1 ∧ nextEvent step src1 = some (.ok e, src2) ∧ e.eventType = .streamEnd ∧ WholeTo .streamEnd (es.map (·.eventType)) vs.length := by
  simp only [loadFrom, bind, Option.bind_eq_some_iff] at h
  obtain ⟨y, h1, h2⟩ := h
  cases y with
  | error err => cases h2
  | ok p =>
    obtain ⟨out, src'⟩ := p
    obtain ⟨es, src1, e, n, d1, d2, d3, d4, d5⟩ := loop_whole h1 ⟨by decide, by decide⟩ _ _ rfl
    obtain ⟨l', h3, h4⟩ := d5 [] rfl
    simp only [List.nil_append] at h3
    subst h3
    dsimp only at h2
    split at h2
    · cases h2
    · simp only [Option.some.injEq, Except.ok.injEq] at h2
      subst h2
      exact ⟨es, src1, e, src', d1, d2, d3, by rw [show (Out.list l').values.length = n from h4]; exact d4⟩

/-- If the events end with an exception, `load` raises. -/
theorem loop_raises {src src2 : Source R} {es : List Event} {err : PyErr} {src3 : Source R} (hd : Delivers step src es src2) (hn : nextEvent step src2 = some (.error err, src3)) :
    ∀ {ty : IonEventType} {out : Out}, (∃ err', loadLoop step ty out src = some (.error err')) ∨
      ∃ out' src' es1 e es2, loadLoop step ty out src = some (.ok (out', src')) ∧ e.eventType = ty ∧ es = es1 ++ e :: es2 ∧ Delivers step src' es2 src2 := by
  suffices H : ∀ n (es : List Event) (src : Source R), es.length ≤ n → Delivers step src es src2 → ∀ {ty : IonEventType} {out : Out}, (∃ err', loadLoop step ty out src = some (.error err')) ∨
      ∃ out' src' es1 e es2, loadLoop step ty out src = some (.ok (out', src')) ∧ e.eventType = ty ∧ es = es1 ++ e :: es2 ∧ Delivers step src' es2 src2 by
    intro ty out; exact H _ _ _ (Nat.le_refl _) hd
  intro n
  induction n with
  | zero =>
    intro es src hl hd ty out
    have : es = [] := List.eq_nil_of_length_eq_zero (by omega)
    subst this
    cases hd
    refine .inl ⟨err, ?_⟩
    rw [loadLoop.eq_def]
    simp only [hn, bind, Option.bind_some]
  | succ n ih =>
    intro es src hl hd ty out
    cases hd with
    | nil =>
      refine .inl ⟨err, ?_⟩
      rw [loadLoop.eq_def]
      simp only [hn, bind, Option.bind_some]
    | cons _ src1 _ e es h1 h2 =>
      simp only [List.length_cons, Nat.add_le_add_iff_right] at hl
      rw [loadLoop.eq_def]
      simp only [h1, bind, Option.bind_some]
      by_cases c1 : e.eventType = ty
      · rw [if_pos c1]
        exact .inr ⟨_, _, [], e, es, rfl, c1, rfl, h2⟩
      · rw [if_neg c1]
        have more : ∀ {es3 : List Event} {src4 : Source R} {out : Out} {es0 : List Event}, e :: es = es0 ++ es3 → es3.length ≤ n → Delivers step src4 es3 src2 →
            (∃ err', loadLoop step ty out src4 = some (.error err')) ∨
            ∃ out' src' es1 e' es2, loadLoop step ty out src4 = some (.ok (out', src')) ∧ e'.eventType = ty ∧ e :: es = es1 ++ e' :: es2 ∧ Delivers step src' es2 src2 := by
          intro es3 src4 out es0 h3 h4 h5
          rcases ih es3 src4 h4 h5 (ty := ty) (out := out) with h6 | ⟨out', src', es1, e', es2, h6, h7, h8, h9⟩
          · exact .inl h6
          · exact .inr ⟨out', src', es0 ++ es1, e', es2, h6, h7, by rw [h3, h8]; simp, h9⟩
        by_cases c2 : e.eventType = .containerStart
        · rw [if_pos c2]
          cases hc : newContainer e with
          | error err => exact .inl ⟨err, rfl⟩
          | ok c =>
            dsimp only
            rcases ih es src1 hl h2 (ty := .containerEnd) (out := c.1) with ⟨err', h3⟩ | ⟨out', src', es1, e', es2, h3, h4, h5, h6⟩
            · rw [h3]; exact .inl ⟨err', rfl⟩
            · rw [h3]
              simp only [Option.bind_some]
              cases ha : out.add e (out'.obj c.2.1 c.2.2) with
              | error err => exact .inl ⟨err, rfl⟩
              | ok out2 =>
                exact more (es0 := e :: (es1 ++ [e'])) (by rw [h5]; simp) (by rw [h5] at hl; simp only [List.length_append, List.length_cons] at hl; omega) h6
        · rw [if_neg c2]
          by_cases c3 : e.eventType = .scalar
          · rw [if_pos c3]
            cases hc : scalarObj e with
            | error err => exact .inl ⟨err, rfl⟩
            | ok v =>
              dsimp only
              cases ha : out.add e v with
              | error err => exact .inl ⟨err, rfl⟩
              | ok out2 => exact more (es0 := [e]) rfl hl h2
          · rw [if_neg c3]
            exact more (es0 := [e]) rfl hl h2

/-- If the events end with an exception before the end of the stream, `load` raises. -/
theorem from_raises {single : Bool} {src src2 src3 : Source R} {es : List Event} {err : PyErr} (hd : Delivers step src es src2) (hn : nextEvent step src2 = some (.error err, src3))
    (he : ∀ e ∈ es, e.eventType ≠ .streamEnd) : ∃ err', loadFrom step single src = some (.error err') := by
  rcases loop_raises hd hn (ty := .streamEnd) (out := .list []) with ⟨err', h⟩ | ⟨out', src', es1, e, es2, _, h1, rfl, _⟩
  · exact ⟨err', by simp [loadFrom, h]⟩
  · exact absurd h1 (he e (by simp))

end

/-! ## Nothing but values -/

section
open Ion.ManagedReader (Nests StatusOk send_nests)
variable {R : Type} {raw : R → Cmd → Except PyErr IonEvent × R} {strict : Bool} {Inv : List IonType → Bool → Bool → R → Prop}

/-- A reader at a place where these containers are open. -/
def SourceOk (raw : R → Cmd → Except PyErr IonEvent × R) (Inv : List IonType → Bool → Bool → R → Prop) (opens : List IonType) (opened : Bool) : Source (ManagedReader.Status R) → Prop
  | .active S _ => StatusOk raw Inv opens opened S
  | _ => True

/-- Any context may come about. -/
theorem surfaced_any (ctx : Context) (b : Bool) : ∃ l out, Surfaced ctx.catalog l out ctx b := by
  let start : IonEvent := { eventType := .containerStart, ionType := some .struct, annotations := [.tok ⟨some TEXT_ION_SYMBOL_TABLE, none, none⟩], depth := some 0 }
  have hs : ∀ c, IsSystem c start := fun c => ⟨rfl, .inr (.inr ⟨rfl, rfl, _, _, _, rfl, rfl, rfl⟩)⟩
  have h1 : Surfaced ctx.catalog ([] ++ [start] ++ [{ eventType := .containerEnd, ionType := some .struct, depth := some 0 }]) [] ctx false := .tableEnd (.table .start rfl (hs _)) ⟨rfl, rfl⟩ rfl
  cases b with
  | false => exact ⟨_, _, h1⟩
  | true => exact ⟨_, _, .table h1 rfl (hs _)⟩

theorem await_end {step : R → Cmd → Option (Except PyErr Event × R)} {r : Except PyErr Event} {S : R} {cs : List Bytes} {o : Except PyErr Event × Source R}
    (h : awaitEvent step r S cs = some o) : ∀ {e : Event}, o.1 = .ok e → e.eventType = .streamEnd → o.2 = .ended := by
  refine awaitEvent.partial_correctness step (fun r S cs o => ∀ {e : Event}, o.1 = .ok e → e.eventType = .streamEnd → o.2 = .ended) ?_ r S cs o h
  intro f ih r S cs o h e he ht
  cases r with
  | error err => cases h; cases he
  | ok x =>
    dsimp only at h
    by_cases hx : x.eventType.isStreamSignal = true
    · rw [if_pos hx] at h
      cases cs with
      | nil =>
        dsimp only at h
        split at h
        · simp only [bind, Option.bind_eq_some_iff] at h
          obtain ⟨⟨y, S1⟩, h1, h2⟩ := h
          exact ih _ _ _ _ h2 he ht
        · cases h; rfl
      | cons d ds =>
        simp only [bind, Option.bind_eq_some_iff] at h
        obtain ⟨⟨y, S1⟩, h1, h2⟩ := h
        exact ih _ _ _ _ h2 he ht
    · rw [if_neg hx] at h
      cases h
      cases he
      rw [ht] at hx
      exact absurd rfl hx

theorem next_end {step : R → Cmd → Option (Except PyErr Event × R)} {src src' : Source R} {e : Event} (h : nextEvent step src = some (.ok e, src')) (he : e.eventType = .streamEnd) : src' = .ended := by
  cases src with
  | ended => cases h
  | dead => cases h
  | active S cs =>
    simp only [nextEvent, bind, Option.bind_eq_some_iff] at h
    obtain ⟨⟨y, S1⟩, h1, h2⟩ := h
    exact await_end h2 rfl he

theorem delivers_ends {step : R → Cmd → Option (Except PyErr Event × R)} {src src1 src2 : Source R} {es : List Event} {e : Event} (h : Delivers step src es src1) (hn : nextEvent step src1 = some (.ok e, src2)) :
    ∀ x ∈ es, x.eventType ≠ .streamEnd := by
  induction h with
  | nil => simp
  | cons src src1 src2 y es h1 h2 ih =>
    intro x hx
    rcases List.mem_cons.1 hx with rfl | hx
    · intro hc
      have := next_end h1 hc
      subst this
      cases h2 with
      | nil => cases hn
      | cons _ _ _ _ _ h3 => cases h3
    · exact ih hn x hx

theorem status_send (N : Nests raw strict Inv) {S S' : ManagedReader.Status R} {cmd : Cmd} {e : Event} {opens : List IonType} {opened : Bool} (h : StatusOk raw Inv opens opened S) (hc : cmd ≠ .skip)
    (hr : ManagedReader.send raw S cmd = some (.ok e, S')) : ∃ opens', nestUser strict opens e = some opens' ∧ StatusOk raw Inv opens' (lastStarts opened e.eventType) S' := by
  cases S with
  | dead => rw [ManagedReader.send.eq_def] at hr; cases hr
  | live st ctx hd =>
    have hb : ManagedReader.Before strict Inv opens opened st cmd hd := by
      cases hd with
      | none => exact ⟨h.1, h.2.1, fun k => absurd k hc, h.2.2⟩
      | some hd =>
        obtain ⟨h1, h2, h3, h4⟩ := h
        refine ⟨h1, h2, ?_⟩
        cases hsk : hd.skipping with
        | true =>
          simp only [hsk, if_true] at h4 ⊢
          obtain ⟨ty, o, h5⟩ := h4
          exact ⟨ty, o, true, h5, .inl rfl, fun h => absurd h hc⟩
        | false =>
          simp only [hsk, Bool.false_eq_true, if_false] at h4 ⊢
          exact ⟨h4, hc⟩
    obtain ⟨l, out, hsur⟩ := surfaced_any ctx hd.isSome
    obtain ⟨opens', g1, g2, _⟩ := send_nests N (G := fun _ _ => True) (fun _ _ => trivial) hr rfl rfl hb (l := l) trivial hsur
    exact ⟨opens', g1, g2⟩

theorem await_nests (N : Nests raw strict Inv) {r : Except PyErr Event} {S : ManagedReader.Status R} {cs : List Bytes} {o : Except PyErr Event × Source (ManagedReader.Status R)}
    (h : awaitEvent (ManagedReader.send raw) r S cs = some o) : ∀ {opens : List IonType} {opened : Bool}, (∀ e, r = .ok e → ∃ opens', nestUser strict opens e = some opens' ∧ StatusOk raw Inv opens' (lastStarts opened e.eventType) S) →
    ∀ {e : Event}, o.1 = .ok e → e.eventType ≠ .streamEnd → e.eventType.isStreamSignal = false ∧ ∃ opens', nestUser strict opens e = some opens' ∧ SourceOk raw Inv opens' (lastStarts opened e.eventType) o.2 := by
  refine awaitEvent.partial_correctness (ManagedReader.send raw) (fun r S cs o => ∀ {opens : List IonType} {opened : Bool}, (∀ e, r = .ok e → ∃ opens', nestUser strict opens e = some opens' ∧ StatusOk raw Inv opens' (lastStarts opened e.eventType) S) →
    ∀ {e : Event}, o.1 = .ok e → e.eventType ≠ .streamEnd → e.eventType.isStreamSignal = false ∧ ∃ opens', nestUser strict opens e = some opens' ∧ SourceOk raw Inv opens' (lastStarts opened e.eventType) o.2) ?_ r S cs o h
  intro f ih r S cs o h opens opened hr e he hne
  cases r with
  | error err => cases h; cases he
  | ok x =>
    dsimp only at h
    obtain ⟨opens', g1, g2⟩ := hr x rfl
    by_cases hx : x.eventType.isStreamSignal = true
    · rw [if_pos hx] at h
      have e1 : opens' = opens := by
        cases ht : x.eventType <;> simp [ht, IonEventType.isStreamSignal] at hx <;> simp only [nestUser, ht] at g1
        · exact (Option.some.inj g1).symm
        · split at g1
          · exact (Option.some.inj g1).symm
          · cases g1
      subst e1
      rw [ManagedReader.last_signal hx] at g2
      cases cs with
      | nil =>
        dsimp only at h
        split at h
        · simp only [bind, Option.bind_eq_some_iff] at h
          obtain ⟨⟨y, S1⟩, h1, h2⟩ := h
          exact ih _ _ _ _ h2 (fun e he => status_send N g2 (cmd := .next) (by simp) (by rw [h1, show y = .ok e from he])) he hne
        · cases h; cases he; exact absurd rfl hne
      | cons d ds =>
        simp only [bind, Option.bind_eq_some_iff] at h
        obtain ⟨⟨y, S1⟩, h1, h2⟩ := h
        exact ih _ _ _ _ h2 (fun e he => status_send N g2 (cmd := .data d) (by simp) (by rw [h1, show y = .ok e from he])) he hne
    · rw [if_neg hx] at h
      cases h
      cases he
      exact ⟨by simpa using hx, opens', g1, g2⟩

theorem next_nests (N : Nests raw strict Inv) {src src' : Source (ManagedReader.Status R)} {e : Event} {opens : List IonType} {opened : Bool} (hs : SourceOk raw Inv opens opened src)
    (h : nextEvent (ManagedReader.send raw) src = some (.ok e, src')) (he : e.eventType ≠ .streamEnd) :
    e.eventType.isStreamSignal = false ∧ ∃ opens', nestUser strict opens e = some opens' ∧ SourceOk raw Inv opens' (lastStarts opened e.eventType) src' := by
  cases src with
  | ended => cases h
  | dead => cases h
  | active S cs =>
    simp only [nextEvent, bind, Option.bind_eq_some_iff] at h
    obtain ⟨⟨y, S1⟩, h1, h2⟩ := h
    exact await_nests N h2 (fun e he => status_send N hs (cmd := .next) (by simp) (by rw [h1, show y = .ok e from he])) rfl he

/-- Events delivered with `NEXT` are nested, and no signals. -/
theorem delivers_nest (N : Nests raw strict Inv) {src src' : Source (ManagedReader.Status R)} {es : List Event} (h : Delivers (ManagedReader.send raw) src es src') :
    ∀ {opens : List IonType} {opened : Bool}, SourceOk raw Inv opens opened src → (∀ e ∈ es, e.eventType ≠ .streamEnd) → (∀ e ∈ es, e.eventType.isStreamSignal = false) ∧ (nestUserAll strict opens es).isSome = true := by
  induction h with
  | nil => intro opens opened _ _; exact ⟨by simp, rfl⟩
  | cons src src1 src2 e es h1 _ ih =>
    intro opens opened hs hne
    obtain ⟨g1, opens', g2, g3⟩ := next_nests N hs h1 (hne e (by simp))
    obtain ⟨k1, k2⟩ := ih g3 fun x hx => hne x (by simp [hx])
    refine ⟨?_, by simp only [nestUserAll, g2, Option.bind_some]; exact k2⟩
    intro x hx
    rcases List.mem_cons.1 hx with rfl | hx
    · exact g1
    · exact k1 x hx

theorem nestAll_append {opens : List IonType} {a b : List Event} : nestUserAll strict opens (a ++ b) = (nestUserAll strict opens a).bind fun o => nestUserAll strict o b := by
  induction a generalizing opens with
  | nil => rfl
  | cons e a ih =>
    simp only [List.cons_append, nestUserAll]
    cases nestUser strict opens e with
    | none => rfl
    | some o => exact ih

/-- Nothing but values. -/
theorem whole_of {ts : List IonEventType} {t : IonEventType} {n : Nat} (h : WholeTo t ts n) : ∀ {es : List Event} {opens : List IonType}, es.map (·.eventType) = ts → (∀ e ∈ es, e.eventType.isStreamSignal = false) →
    (nestUserAll strict opens es).isSome = true → (t = .containerEnd ∨ (t = .streamEnd ∧ opens = [])) → Whole ts n ∧ nestUserAll strict opens es = some opens := by
  induction h with
  | nil =>
    intro es opens he _ _ _
    have : es = [] := by simpa using he
    subst this
    exact ⟨.nil, rfl⟩
  | @scalar t ts n _ ih =>
    intro es opens he hs hn ht
    cases es with
    | nil => cases he
    | cons e es =>
      simp only [List.map_cons, List.cons.injEq] at he
      simp only [nestUserAll] at hn ⊢
      have h1 : nestUser strict opens e = some opens := by
        cases hu : nestUser strict opens e with
        | none => rw [hu] at hn; cases hn
        | some o =>
          simp only [nestUser, he.1] at hu
          split at hu
          · exact hu.symm ▸ rfl
          · cases hu
      rw [h1] at hn ⊢
      obtain ⟨k1, k2⟩ := ih he.2 (fun x hx => hs x (by simp [hx])) hn ht
      exact ⟨.scalar k1, k2⟩
  | @container t inner ts m n _ _ ih1 ih2 =>
    intro es opens he hs hn ht
    cases es with
    | nil => cases he
    | cons e es =>
      simp only [List.map_cons, List.cons.injEq] at he
      obtain ⟨he1, he2⟩ := he
      obtain ⟨a, b, rfl, ha, hb⟩ := List.map_eq_append_iff.1 he2
      cases b with
      | nil => cases hb
      | cons z b =>
        simp only [List.map_cons, List.cons.injEq] at hb
        simp only [nestUserAll] at hn ⊢
        cases hu : nestUser strict opens e with
        | none => rw [hu] at hn; cases hn
        | some o =>
          rw [hu] at hn
          simp only [Option.bind_some] at hn ⊢
          rw [nestAll_append] at hn ⊢
          have h0 : ∃ ty, o = ty :: opens := by
            simp only [nestUser, he1] at hu
            split at hu
            · split at hu
              · exact ⟨_, (Option.some.inj hu).symm⟩
              · cases hu
            · cases hu
          obtain ⟨ty, rfl⟩ := h0
          have ha1 : (nestUserAll strict (ty :: opens) a).isSome = true := by
            cases hx : nestUserAll strict (ty :: opens) a with
            | none => rw [hx] at hn; cases hn
            | some _ => rfl
          obtain ⟨k1, k2⟩ := ih1 ha (fun x hx => hs x (by simp [hx])) ha1 (.inl rfl)
          rw [k2] at hn ⊢
          simp only [Option.bind_some, nestUserAll] at hn ⊢
          have h1 : nestUser strict (ty :: opens) z = some opens := by
            cases hz : nestUser strict (ty :: opens) z with
            | none => rw [hz] at hn; cases hn
            | some o' =>
              simp only [nestUser, hb.1] at hz
              split at hz
              · exact hz.symm ▸ rfl
              · cases hz
          rw [h1] at hn ⊢
          obtain ⟨k3, k4⟩ := ih2 hb.2 (fun x hx => hs x (by simp [hx])) hn ht
          exact ⟨.container k1 k3, k4⟩
  | @other t x ts n h1 h2 h3 _ ih =>
    intro es opens he hs hn ht
    exfalso
    cases es with
    | nil => cases he
    | cons e es =>
      simp only [List.map_cons, List.cons.injEq] at he
      obtain ⟨he1, he2⟩ := he
      have h4 := hs e (by simp)
      simp only [nestUserAll] at hn
      rw [← he1] at h1 h2 h3
      cases hx : e.eventType <;> simp only [hx, IonEventType.isStreamSignal, reduceCtorEq, not_true_eq_false, ne_eq] at h1 h2 h3 h4
      case containerEnd =>
        rcases ht with rfl | ⟨rfl, rfl⟩
        · exact h1 rfl
        · simp only [nestUser, hx] at hn
          cases hn
      case versionMarker =>
        simp only [nestUser, hx] at hn
        cases hn

/-- `load` returns after complete values, and there were no other events. -/
theorem from_values (N : Nests raw strict Inv) {single : Bool} {S : ManagedReader.Status R} {cs : List Bytes} {vs : List PyObj}
    (h : loadFrom (ManagedReader.send raw) single (.active S cs) = some (.ok vs)) (hs : StatusOk raw Inv [] false S) :
    ∃ es src1 e src2, Delivers (ManagedReader.send raw) (.active S cs) es src1 ∧ nextEvent (ManagedReader.send raw) src1 = some (.ok e, src2) ∧ e.eventType = .streamEnd ∧ Whole (es.map (·.eventType)) vs.length := by
  obtain ⟨es, src1, e, src2, h1, h2, h3, h4⟩ := from_whole h
  have hne := delivers_ends h1 h2
  obtain ⟨k1, k2⟩ := delivers_nest N h1 (src := .active S cs) hs hne
  exact ⟨es, src1, e, src2, h1, h2, h3, (whole_of h4 rfl k1 k2 (.inr ⟨rfl, rfl⟩)).1⟩
end
end Ion.Simple

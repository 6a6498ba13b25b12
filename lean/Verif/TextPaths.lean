import Verif.TextWhole
import Verif.TextLevels
import Verif.Props.TextNesting
set_option linter.unusedSimpArgs false
/-!
# The text reader does not see how a text is divided: the trampolines

Two readers that are fed with the same text in different pieces go through the same states (`Twin`), and give the same answers
(`run_twins`).
-/
namespace Ion.TextReader.Whole
open Ion Ion.Queue Ion.TextReader Ion.TextReader.Calm
open Ion.RawReader (Cmd)

variable {F : FloatText} {s : St} {p l : List Nat} {units units' : Bytes → List Nat}

/-! ## The queue -/

/-- `p` has been read from the queue (last first); the queue and the chunks that are to come contain `l`. -/
structure Held (units : Bytes → List Nat) (q : BufferQueue Nat) (cs : List Bytes) (p l : List Nat) : Prop where
  rel : ∃ rest, Rel q ⟨p.reverse, rest⟩ ∧ l = rest ++ cs.flatMap units
  chunks : ∀ d ∈ cs, units d ≠ []

theorem held_size {q : BufferQueue Nat} {cs : List Bytes} (h : Held units q cs p l) :
    (q.size = 0 ∧ l = cs.flatMap units) ∨ (q.size ≠ 0 ∧ ∃ x l' q', l = x :: l' ∧ q.readByte = .ok (x, q') ∧ Held units q' cs (x :: p) l') := by
  obtain ⟨⟨rest, h1, h2⟩, h3⟩ := h
  cases rest with
  | nil => exact .inl ⟨by rw [h1.size]; rfl, by simpa using h2⟩
  | cons x rest =>
    refine .inr ⟨by rw [h1.size]; simp; omega, x, rest ++ cs.flatMap units, ?_⟩
    have hs := rel_step h1 .readByte trivial
    simp only [step, Spec.Flat.step] at hs
    cases hb : q.readByte with
    | error err => rw [hb] at hs; simp at hs
    | ok r =>
      obtain ⟨b, q'⟩ := r
      rw [hb] at hs
      simp only [Out.byte.injEq] at hs
      obtain ⟨rfl, hs⟩ := hs
      refine ⟨q', by simpa using h2, rfl, ⟨⟨_, ?_, rfl⟩, h3⟩⟩
      simpa [Spec.Flat.advance] using hs

theorem held_extend {q : BufferQueue Nat} {d : Bytes} {ds : List Bytes} (h : Held units q (d :: ds) p l) : Held units (q.extend (units d)) ds p l := by
  obtain ⟨⟨rest, h1, h2⟩, h3⟩ := h
  have hs := (rel_step h1 (.extend (units d)) (h3 d (by simp))).2
  simp only [step, Spec.Flat.step] at hs
  exact ⟨⟨_, hs, by simp [h2]⟩, fun x hx => h3 x (by simp [hx])⟩

theorem held_eof {q : BufferQueue Nat} (h : Held units q [] p []) :
    ∃ q', (q.extend [EOF]).size ≠ 0 ∧ (q.extend [EOF]).readByte = .ok (EOF, q') ∧ Held units q' [] (EOF :: p) [] := by
  obtain ⟨⟨rest, h1, h2⟩, h3⟩ := h
  have hr : rest = [] := by simpa using h2.symm
  subst hr
  have hs := (rel_step h1 (.extend [EOF]) (by simp)).2
  simp only [step, Spec.Flat.step, List.nil_append] at hs
  have h : Held units (q.extend [EOF]) [] p [EOF] := ⟨⟨_, hs, by simp⟩, by simp⟩
  rcases held_size h with ⟨_, h6⟩ | ⟨h5, x, r', q', h6, h7, h8⟩
  · simp at h6
  · simp only [List.cons.injEq] at h6
    obtain ⟨rfl, rfl⟩ := h6
    exact ⟨q', h5, h7, h8⟩

theorem held_unread {q : BufferQueue Nat} {cs : List Bytes} {x : Nat} (h : Held units q cs (x :: p) l) : ∃ q', q.unread x = (.ok (), q') ∧ Held units q' cs p (x :: l) := by
  obtain ⟨⟨rest, h1, h2⟩, h3⟩ := h
  have hs := rel_step h1 (.unread x) (.inr (by simp))
  have hne : (x :: p).reverse ≠ [] := by simp
  simp only [step, Spec.Flat.step, hne, if_false] at hs
  cases hb : q.unread x with
  | mk res q' =>
    rw [hb] at hs
    cases res with
    | error err => simp at hs
    | ok u => exact ⟨q', rfl, ⟨⟨_, by simpa using hs.2, by simp [h2]⟩, h3⟩⟩

theorem held_done {q : BufferQueue Nat} {cs : List Bytes} (h : Held units q cs p []) : cs = [] ∧ q.size = 0 := by
  obtain ⟨⟨rest, h1, h2⟩, h3⟩ := h
  obtain ⟨rfl, h4⟩ := List.append_eq_nil_iff.1 h2.symm
  refine ⟨?_, by rw [h1.size]; rfl⟩
  cases cs with
  | nil => rfl
  | cons d ds =>
    simp only [List.flatMap_cons, List.append_eq_nil_iff] at h4
    exact absurd h4.1 (h3 d (by simp))

/-! ## Replies -/

/-- How the reader continues from the action `a`, as a reply of `send`. -/
def rep (F : FloatText) (depth : Int) (sk : Bool) (a : Act) (q : BufferQueue Nat) : Except PyErr IonEvent × Status := orDiverge (deliver F depth sk a q)

theorem rep_congr {depth : Int} {sk : Bool} {a b : Act} {q q' : BufferQueue Nat} (h : advance F a q = advance F b q') : rep F depth sk a q = rep F depth sk b q' := by
  simp only [rep]
  rw [deliver.eq_def, deliver.eq_def (a := b), h]

theorem rep_err {depth : Int} {sk : Bool} {e : PyErr} {q : BufferQueue Nat} : rep F depth sk (.err e) q = (.error e, .dead) := by
  simp only [rep]; rw [deliver.eq_def, advance.eq_def]; simp [orDiverge]

theorem rep_block {depth : Int} {sk c f : Bool} {k : Nat → Act} {q : BufferQueue Nat} (h : q.size = 0) :
    rep F depth sk (.read c f k) q = if sk && c then (.error .modelFuel, .dead) else
      (.ok (if c then ION_STREAM_END_EVENT else ION_STREAM_INCOMPLETE_EVENT), .blocked c f k q depth sk) := by
  simp only [rep]
  rw [deliver.eq_def, advance.eq_def]
  cases sk <;> cases c <;> simp [h, orDiverge]

theorem rep_wait {depth : Int} {sk : Bool} {a : Act} {q : BufferQueue Nat} (h : q.size = 0) :
    rep F depth sk (.wait a) q = if sk then (.error .modelFuel, .dead) else (.ok ION_STREAM_END_EVENT, .waiting a q depth sk) := by
  simp only [rep]
  rw [deliver.eq_def, advance.eq_def]
  cases sk <;> simp [h, orDiverge]

/-- The event is handed to the caller. -/
def Stops (depth : Int) (sk : Bool) (e : IonEvent) : Prop := sk = true → e.eventType = .containerEnd ∧ e.depth.getD 0 ≤ depth

/-- The depth that the reader keeps in mind. -/
def newDepth (depth : Int) (sk : Bool) (e : IonEvent) : Int :=
  if sk = false ∧ (e.eventType = .containerStart ∨ e.eventType = .containerEnd) then e.depth.getD 0 else depth

theorem rep_emit {depth : Int} {sk : Bool} {e : IonEvent} {q : BufferQueue Nat} (h : Stops depth sk e) :
    rep F depth sk (.emit e s) q = (.ok e, .paused e s q (newDepth depth sk e)) := by
  simp only [rep, newDepth]
  rw [deliver.eq_def, advance.eq_def]
  cases sk with
  | false =>
    by_cases hc : e.eventType = .containerStart ∨ e.eventType = .containerEnd <;> simp [hc, orDiverge]
  | true => simp [h rfl, orDiverge]

theorem rep_skip {depth : Int} {e : IonEvent} {q : BufferQueue Nat} (h : ¬ Stops depth true e) : rep F depth true (.emit e s) q = rep F depth true (.go s) q := by
  have h : ¬ (e.eventType = .containerEnd ∧ e.depth.getD 0 ≤ depth) := fun h' => h fun _ => h'
  simp only [rep]
  conv => lhs; rw [deliver.eq_def, advance.eq_def]
  simp only [Option.bind_eq_bind, Option.bind_some, if_true, if_neg h]

/-! ## The loop of the caller -/

/-- The loop of `blocking_reader`. -/
def loopOf (F : FloatText) (units : Bytes → List Nat) := Blocking.loop (TextReader.send F units) IonEvent.eventType ION_STREAM_END_EVENT

/-- Feeding the reader with chunks, as long as it asks for more, leads from one reply to another. -/
inductive Reach (F : FloatText) (units : Bytes → List Nat) : Except PyErr IonEvent × Status → List Bytes → Except PyErr IonEvent × Status → List Bytes → Prop
  | refl {r : Except PyErr IonEvent × Status} {cs : List Bytes} : Reach F units r cs r cs
  | feed {e : IonEvent} {st : Status} {d : Bytes} {ds : List Bytes} {r : Except PyErr IonEvent × Status} {cs : List Bytes} :
      IsSignal e → Reach F units (TextReader.send F units st (.data d)) ds r cs → Reach F units (.ok e, st) (d :: ds) r cs

theorem Reach.trans {r r' r'' : Except PyErr IonEvent × Status} {cs cs' cs'' : List Bytes} (h : Reach F units r cs r' cs') (h' : Reach F units r' cs' r'' cs'') : Reach F units r cs r'' cs'' := by
  induction h with
  | refl => exact h'
  | feed h1 _ ih => exact .feed h1 (ih h')

theorem Reach.loop {r r' : Except PyErr IonEvent × Status} {cs cs' : List Bytes} (h : Reach F units r cs r' cs') : loopOf F units r cs = loopOf F units r' cs' := by
  induction h with
  | refl => rfl
  | feed h1 _ ih =>
    rw [← ih]
    simp only [loopOf]
    rw [Blocking.loop]
    rcases h1 with rfl | rfl <;> rfl

theorem Reach.done {r r' : Except PyErr IonEvent × Status} {cs' : List Bytes} (h : Reach F units r [] r' cs') : r = r' ∧ cs' = [] := by
  cases h
  exact ⟨rfl, rfl⟩

theorem Reach.eq {r r' : Except PyErr IonEvent × Status} {cs : List Bytes} (h : r = r') : Reach F units r cs r' cs := by rw [h]; exact .refl

theorem reach_read {depth : Int} {sk c f : Bool} {k : Nat → Act} {x : Nat} {q : BufferQueue Nat} {cs : List Bytes} (hc : sk = true → c = false) (h : Held units q cs p (x :: l)) :
    ∃ q' cs', Held units q' cs' (x :: p) l ∧ Reach F units (rep F depth sk (.read c f k) q) cs (rep F depth sk (k x) q') cs' := by
  have now : ∀ {q : BufferQueue Nat} {cs : List Bytes}, Held units q cs p (x :: l) → q.size ≠ 0 → ∃ q', Held units q' cs (x :: p) l ∧ rep F depth sk (.read c f k) q = rep F depth sk (k x) q' := by
    intro q cs h h0
    rcases held_size h with ⟨h1, _⟩ | ⟨h1, x', l', q', h2, h3, h4⟩
    · exact absurd h1 h0
    · cases h2
      exact ⟨q', h4, rep_congr (by rw [advance.eq_def]; simp [h1, h3])⟩
  by_cases h0 : q.size = 0
  · cases cs with
    | nil =>
      rcases held_size h with ⟨_, h2⟩ | ⟨h1, _⟩
      · simp at h2
      · exact absurd h0 h1
    | cons d ds =>
      have hd := h.chunks d (by simp)
      have h' := held_extend h
      obtain ⟨q', h1, h2⟩ := now h' (by
        rcases held_size h with ⟨_, h2⟩ | ⟨h1, _⟩
        · obtain ⟨⟨rest, h3, h4⟩, _⟩ := h
          have := (rel_step h3 (.extend (units d)) hd).2.size
          simp only [step, Spec.Flat.step] at this
          rw [this]
          have : (units d).length ≠ 0 := by simpa using hd
          simp only [List.length_append]; omega
        · exact absurd h0 h1)
      refine ⟨q', ds, h1, ?_⟩
      rw [← h2, rep_block h0]
      have : (sk && c) = false := by
        cases hsk : sk with
        | false => rfl
        | true => rw [hc hsk]; rfl
      rw [this]
      simp only [Bool.false_eq_true, if_false]
      refine .feed (by cases c; exact .inr rfl; exact .inl rfl) (.eq ?_)
      simp only [send, hd, if_false, rep]
  · obtain ⟨q', h1, h2⟩ := now h h0
    exact ⟨q', cs, h1, .eq h2⟩

/-! ## The way to the next answer -/

/-- The invariants of an action. -/
structure Fit (opens : List IonType) (a : Act) (p l : List Nat) : Prop where
  ok : Ok a p l
  safe : Safe a p.length l
  last : EofLast l
  fine : Fine (p.reverse ++ l)
  nest : ActOk opens a
  level : Lvl (opens = []) a

theorem Fit.next {opens : List IonType} (h : Fit opens (.go s) p l) : Fit opens (TextReader.next F s) p l := by
  refine ⟨ok_next h.safe h.ok h.fine, safe_next h.safe, h.last, h.fine, next_ok h.nest, lvl_next h.level fun hp ho => ?_⟩
  have hn : StOk opens s := h.nest
  unfold StOk at hn
  cases hpc : s.pc with
  | enter ty c => exact absurd hpc (hp ty c)
  | _ =>
    rw [hpc] at hn
    have := hn.1.head.2
    rw [ho] at this
    exact List.eq_nil_of_length_eq_zero this

/-- Here the reader answers. -/
def Final (depth : Int) (sk : Bool) : Act → List Nat → Prop
  | .err _, _ => True
  | .emit e _, _ => Stops depth sk e
  | .read _ _ _, l => l = []
  | .wait _, _ => True
  | _, _ => False

theorem path {depth : Int} {sk : Bool} (hd : 0 ≤ depth) (m : Nat) : ∀ (a : Act) (p l : List Nat) (opens : List IonType), Fit opens a p l → Below m a l → (sk = true → opens ≠ []) →
    ∃ b p' l' opens', Final depth sk b l' ∧ Fit opens' b p' l' ∧ (sk = true → opens' ≠ []) ∧
      ∀ (units : Bytes → List Nat) q cs, Held units q cs p l → ∃ q' cs', Held units q' cs' p' l' ∧ Reach F units (rep F depth sk a q) cs (rep F depth sk b q') cs' := by
  induction m using Nat.strongRecOn with
  | _ m ihm =>
    intro a
    have here : ∀ {a : Act} {p l : List Nat} {opens : List IonType}, Final depth sk a l → Fit opens a p l → (sk = true → opens ≠ []) →
        ∃ b p' l' opens', Final depth sk b l' ∧ Fit opens' b p' l' ∧ (sk = true → opens' ≠ []) ∧
          ∀ (units : Bytes → List Nat) q cs, Held units q cs p l → ∃ q' cs', Held units q' cs' p' l' ∧ Reach F units (rep F depth sk a q) cs (rep F depth sk b q') cs' :=
      fun h1 h2 h3 => ⟨_, _, _, _, h1, h2, h3, fun units q cs h => ⟨q, cs, h, .refl⟩⟩
    have go : ∀ {s : St} {p l : List Nat} {opens : List IonType}, Fit opens (.go s) p l → bound s l < m → (sk = true → opens ≠ []) →
        ∃ b p' l' opens', Final depth sk b l' ∧ Fit opens' b p' l' ∧ (sk = true → opens' ≠ []) ∧
          ∀ (units : Bytes → List Nat) q cs, Held units q cs p l → ∃ q' cs', Held units q' cs' p' l' ∧ Reach F units (rep F depth sk (.go s) q) cs (rep F depth sk b q') cs' := by
      intro s p l opens hf hb ho
      obtain ⟨b, p', l', o', h1, h2, h3, h4⟩ := ihm _ hb _ _ _ _ (hf.next (F := F)) below_next ho
      refine ⟨b, p', l', o', h1, h2, h3, fun units q cs hh => ?_⟩
      obtain ⟨q', cs', h5, h6⟩ := h4 units q cs hh
      exact ⟨q', cs', h5, .trans (.eq (rep_congr (by rw [advance.eq_def]))) h6⟩
    induction a with
    | err e => intro p l opens hf hb ho; exact here trivial hf ho
    | emit e s =>
      intro p l opens hf hb ho
      by_cases hs : Stops depth sk e
      · exact here hs hf ho
      · have hsk : sk = true := by
          cases sk with
          | true => rfl
          | false => exact absurd (fun h => by cases h) hs
        subst hsk
        obtain ⟨o', h1, h2, h3⟩ := hf.nest
        obtain ⟨b, p', l', o'', h4, h5, h6, h7⟩ := go ⟨hf.ok.2, hf.safe, hf.last, hf.fine, h3, hf.level⟩ hb (opens := o') (fun _ hn => by
          subst hn
          by_cases he : e.eventType = .containerEnd
          · obtain ⟨ty, h8⟩ := nest_end h1 he
            refine hs fun _ => ⟨he, ?_⟩
            have := h8
            simp_all
          · by_cases he' : e.eventType = .containerStart
            · obtain ⟨ty, h8⟩ := nest_start h1 he'
              simp_all
            · exact ho rfl (nest_same h1 he' he).symm)
        refine ⟨b, p', l', o'', h4, h5, h6, fun units q cs hh => ?_⟩
        obtain ⟨q', cs', h8, h9⟩ := h7 units q cs hh
        exact ⟨q', cs', h8, .trans (.eq (rep_skip hs)) h9⟩
    | read c f k ih =>
      intro p l opens hf hb ho
      cases l with
      | nil => exact here rfl hf ho
      | cons x l =>
        obtain ⟨b, p', l', o', h1, h2, h3, h4⟩ := ih x (x :: p) l opens ⟨hf.ok.1 _ _ rfl, hf.safe _ _ hf.last (.inr rfl), hf.last.2, fine_read hf.fine, hf.nest x, hf.level.2 x⟩ (hb _ _ rfl) ho
        refine ⟨b, p', l', o', h1, h2, h3, fun units q cs hh => ?_⟩
        obtain ⟨q1, cs1, h5, h6⟩ := reach_read (F := F) (depth := depth) (sk := sk) (c := c) (f := f) (k := k) (fun hsk => by
          cases c with
          | false => rfl
          | true => exact absurd (hf.level.1 rfl) (ho hsk)) hh
        obtain ⟨q', cs', h7, h8⟩ := h4 units q1 cs1 h5
        exact ⟨q', cs', h7, h6.trans h8⟩
    | unread c a ih =>
      intro p l opens hf hb ho
      obtain ⟨p0, rfl, h0⟩ := hf.ok
      obtain ⟨n, hn, hc, hsafe⟩ := hf.safe
      simp only [List.length_cons, Nat.succ.injEq] at hn
      subst hn
      obtain ⟨b, p', l', o', h1, h2, h3, h4⟩ := ih p0 (c :: l) opens ⟨h0, hsafe, ⟨fun hh => absurd hh hc, hf.last⟩, fine_unread hf.fine, hf.nest, hf.level⟩ hb ho
      refine ⟨b, p', l', o', h1, h2, h3, fun units q cs hh => ?_⟩
      obtain ⟨q1, h5, h6⟩ := held_unread hh
      obtain ⟨q', cs', h7, h8⟩ := h4 units q1 cs h6
      exact ⟨q', cs', h7, .trans (.eq (rep_congr (by rw [advance.eq_def]; simp [h5]))) h8⟩
    | wait a ih => intro p l opens hf hb ho; exact here trivial hf ho
    | go s => intro p l opens hf hb ho; exact go hf hb ho

theorem path' {depth : Int} {sk : Bool} (hd : 0 ≤ depth) {a : Act} {opens : List IonType} (hf : Fit opens a p l) (ho : sk = true → opens ≠ []) :
    ∃ b p' l' opens', Final depth sk b l' ∧ Fit opens' b p' l' ∧ (sk = true → opens' ≠ []) ∧
      ∀ (units : Bytes → List Nat) q cs, Held units q cs p l → ∃ q' cs', Held units q' cs' p' l' ∧ Reach F units (rep F depth sk a q) cs (rep F depth sk b q') cs' := by
  obtain ⟨m, hm⟩ := below_exists a l
  exact path hd m a p l opens hf hm ho

/-! ## Two readers -/

/-- Two callers with the same text in different pieces. -/
inductive Twin (F : FloatText) (units units' : Bytes → List Nat) : Blocking.State Status → Blocking.State Status → Prop
  | fresh {cs cs' : List Bytes} {t : List Nat} : Held units .empty cs [] t → Held units' .empty cs' [] t → Fine t → EofLast t → Twin F units units' (.active .fresh cs) (.active .fresh cs')
  | paused {e : IonEvent} {s : St} {q q' : BufferQueue Nat} {depth : Int} {cs cs' : List Bytes} {p l : List Nat} {opens : List IonType} : Held units q cs p l → Held units' q' cs' p l →
      Fit opens (.go s) p l → 0 ≤ depth → (opens = [] → e.depth = some 0 ∧ e.eventType ≠ .containerStart) →
      Twin F units units' (.active (.paused e s q depth) cs) (.active (.paused e s q' depth) cs')
  | ended : Twin F units units' .ended .ended
  | dead : Twin F units units' .dead .dead

/-- The same answer, and the same state. -/
def Same (F : FloatText) (units units' : Bytes → List Nat) (o o' : Except PyErr IonEvent × Blocking.State Status) : Prop := o.1 = o'.1 ∧ Twin F units units' o.2 o'.2

theorem loop_error {e : PyErr} {st : Status} {cs : List Bytes} : loopOf F units (.error e, st) cs = (.error e, .dead) := by
  unfold loopOf
  cases cs with
  | nil => simp only [Blocking.loop, Blocking.atEof]; rw [Blocking.atEofLoop.eq_def]; rfl
  | cons d ds => rfl

theorem loop_event {e : IonEvent} {st : Status} {cs : List Bytes} (he : Real e) : loopOf F units (.ok e, st) cs = (.ok e, .active st cs) := by
  unfold loopOf
  have h3 : e.eventType ≠ .streamEnd := by intro hc; rw [Real, hc] at he; simp [IonEventType.isStreamSignal] at he
  have h4 : e.eventType ≠ .incomplete := by intro hc; rw [Real, hc] at he; simp [IonEventType.isStreamSignal] at he
  have h5 : e.eventType.isStreamSignal = false := he
  cases cs with
  | nil => simp only [Blocking.loop, Blocking.atEof]; rw [Blocking.atEofLoop.eq_def]; simp [h3, h4]
  | cons d ds => simp [Blocking.loop, h5]

/-- An event is delivered. -/
theorem twin_event {e : IonEvent} {depth : Int} {sk : Bool} {opens : List IonType} {q q' : BufferQueue Nat} {cs cs' : List Bytes} (hf : Fit opens (.emit e s) p l) (hd : 0 ≤ depth)
    (h : Held units q cs p l) (h' : Held units' q' cs' p l) : Twin F units units' (.active (.paused e s q (newDepth depth sk e)) cs) (.active (.paused e s q' (newDepth depth sk e)) cs') := by
  obtain ⟨o', h1, h2, h3⟩ := hf.nest
  refine .paused (opens := o') h h' ⟨hf.ok.2, hf.safe, hf.last, hf.fine, h3, hf.level⟩ ?_ ?_
  · unfold newDepth
    split
    · rename_i hc
      rcases hc.2 with hc | hc
      · obtain ⟨ty, _, h5⟩ := nest_start h1 hc
        rw [h5]; simp
      · obtain ⟨ty, _, h5⟩ := nest_end h1 hc
        rw [h5]; simp
    · exact hd
  · rintro rfl
    by_cases he : e.eventType = .containerEnd
    · obtain ⟨ty, _, h5⟩ := nest_end h1 he
      exact ⟨by simpa using h5, by rw [he]; decide⟩
    · by_cases he' : e.eventType = .containerStart
      · obtain ⟨ty, h4, _⟩ := nest_start h1 he'
        cases h4
      · refine ⟨?_, he'⟩
        have ho := nest_same h1 he' he
        subst ho
        have h1 := h1
        unfold Spec.nestText at h1
        cases het : e.eventType with
        | scalar =>
          rw [het] at h1
          dsimp only at h1
          split at h1
          · rename_i hh; simpa using hh.1
          · cases h1
        | versionMarker =>
          rw [het] at h1
          dsimp only at h1
          split at h1
          · rename_i hh; exact hh.2
          · cases h1
        | containerStart => exact absurd het he'
        | containerEnd => exact absurd het he
        | streamEnd => rw [het] at h2; cases h2
        | incomplete => rw [het] at h2; cases h2

/-- Two replies at the end of the text. -/
def Like (F : FloatText) (units units' : Bytes → List Nat) (r r' : Except PyErr IonEvent × Status) : Prop :=
  ∃ (depth : Int) (sk : Bool) (a : Act) (p l : List Nat) (opens : List IonType) (q q' : BufferQueue Nat), 0 ≤ depth ∧ Fit opens a p l ∧ (sk = true → opens ≠ []) ∧ Held units q [] p l ∧ Held units' q' [] p l ∧
    r = rep F depth sk a q ∧ r' = rep F depth sk a q'

theorem Like.symm {r r' : Except PyErr IonEvent × Status} (h : Like F units units' r r') : Like F units' units r' r := by
  obtain ⟨depth, sk, a, p, l, opens, q, q', h1, h2, h3, h4, h5, h6, h7⟩ := h
  exact ⟨depth, sk, a, p, l, opens, q', q, h1, h2, h3, h5, h4, h7, h6⟩

theorem eof_sim {r : Except PyErr IonEvent × Status} {o : Except PyErr IonEvent × Blocking.State Status}
    (h : Blocking.atEofLoop (TextReader.send F units) IonEvent.eventType ION_STREAM_END_EVENT r = some o) {r' : Except PyErr IonEvent × Status} (hl : Like F units units' r r') :
    ∃ o', Blocking.atEofLoop (TextReader.send F units') IonEvent.eventType ION_STREAM_END_EVENT r' = some o' ∧ Same F units units' o o' := by
  refine Blocking.atEofLoop.partial_correctness (TextReader.send F units) IonEvent.eventType ION_STREAM_END_EVENT
    (fun r o => ∀ r', Like F units units' r r' → ∃ o', Blocking.atEofLoop (TextReader.send F units') IonEvent.eventType ION_STREAM_END_EVENT r' = some o' ∧ Same F units units' o o')
    ?_ r o h r' hl
  intro f ih r o h r' hl
  obtain ⟨depth, sk, a, p, l, opens, q, q', hd, hf, ho, hq, hq', rfl, rfl⟩ := hl
  obtain ⟨b, p1, l1, o1, h1, h2, h3, h4⟩ := path' (F := F) hd hf ho
  obtain ⟨q1, cs1, h5, h6⟩ := h4 units q [] hq
  obtain ⟨q2, cs2, h7, h8⟩ := h4 units' q' [] hq'
  obtain ⟨e1, rfl⟩ := h6.done
  obtain ⟨e2, rfl⟩ := h8.done
  rw [e1] at h
  rw [e2]
  cases b with
  | err e =>
    rw [rep_err] at h ⊢
    cases h
    exact ⟨_, by rw [Blocking.atEofLoop.eq_def], rfl, .dead⟩
  | emit e s =>
    rw [rep_emit h1] at h ⊢
    have he : Real e := h2.ok.1
    have h9 : e.eventType ≠ .streamEnd := by intro hc; rw [Real, hc] at he; simp [IonEventType.isStreamSignal] at he
    have h10 : e.eventType ≠ .incomplete := by intro hc; rw [Real, hc] at he; simp [IonEventType.isStreamSignal] at he
    simp only [h9, h10, if_false] at h
    cases h
    refine ⟨(.ok e, .active (.paused e s q2 (newDepth depth sk e)) []), by rw [Blocking.atEofLoop.eq_def]; simp only [h9, h10, if_false], rfl, twin_event h2 hd h5 h7⟩
  | read c f' k =>
    have h1 : l1 = [] := h1
    subst h1
    rw [rep_block (held_done h5).2] at h
    rw [rep_block (held_done h7).2]
    by_cases hk : (sk && c) = true
    · rw [if_pos hk] at h ⊢
      cases h
      exact ⟨_, by rw [Blocking.atEofLoop.eq_def], rfl, .dead⟩
    · rw [if_neg hk] at h ⊢
      cases c with
      | true =>
        cases h
        exact ⟨_, by rw [Blocking.atEofLoop.eq_def]; rfl, rfl, .ended⟩
      | false =>
        rw [Blocking.atEofLoop.eq_def]
        have h' : f (TextReader.send F units (.blocked false f' k q1 depth sk) .next) = some o := h
        show ∃ o', Blocking.atEofLoop (TextReader.send F units') IonEvent.eventType ION_STREAM_END_EVENT (TextReader.send F units' (.blocked false f' k q2 depth sk) .next) = some o' ∧ _
        refine ih _ _ h' _ ?_
        cases f' with
        | false => exact ⟨depth, sk, .err .ionException, p1, [], o1, q1, q2, hd, ⟨trivial, raised_ion, trivial, h2.fine, trivial, trivial⟩, h3, h5, h7, by rw [rep_err]; rfl, by rw [rep_err]; rfl⟩
        | true =>
          obtain ⟨q3, h9, h10, h11⟩ := held_eof h5
          obtain ⟨q4, h12, h13, h14⟩ := held_eof h7
          refine ⟨depth, sk, k EOF, EOF :: p1, [], o1, q3, q4, hd, ⟨h2.ok.2 rfl rfl, h2.safe EOF [] ⟨fun _ => rfl, trivial⟩ (.inl rfl), trivial, fine_eof h2.fine, h2.nest _, h2.level.2 _⟩, h3, h11, h14, ?_, ?_⟩
          · exact rep_congr (by rw [advance.eq_def]; simp [h9, h10])
          · exact rep_congr (by rw [advance.eq_def]; simp [h12, h13])
  | wait a =>
    have h1 : l1 = [] := h2.ok
    subst h1
    rw [rep_wait (held_done h5).2] at h
    rw [rep_wait (held_done h7).2]
    cases sk with
    | true =>
      cases h
      exact ⟨_, by rw [Blocking.atEofLoop.eq_def]; rfl, rfl, .dead⟩
    | false =>
      cases h
      exact ⟨_, by rw [Blocking.atEofLoop.eq_def]; rfl, rfl, .ended⟩
  | unread c a => exact h1.elim
  | go s => exact h1.elim

/-- At the end of the text. -/
theorem eof_same {r r' : Except PyErr IonEvent × Status} (hl : Like F units units' r r') : Same F units units' (loopOf F units r []) (loopOf F units' r' []) := by
  simp only [loopOf, Blocking.loop, Blocking.atEof]
  cases h : Blocking.atEofLoop (TextReader.send F units) IonEvent.eventType ION_STREAM_END_EVENT r with
  | some o =>
    obtain ⟨o', h1, h2⟩ := eof_sim h hl
    rw [h1]
    exact h2
  | none =>
    cases h' : Blocking.atEofLoop (TextReader.send F units') IonEvent.eventType ION_STREAM_END_EVENT r' with
    | none => exact ⟨rfl, .dead⟩
    | some o' =>
      obtain ⟨o, h1, _⟩ := eof_sim h' hl.symm
      rw [h] at h1; cases h1

theorem loop_same {depth : Int} {sk : Bool} {a : Act} {opens : List IonType} {q q' : BufferQueue Nat} {cs cs' : List Bytes} (hd : 0 ≤ depth) (hf : Fit opens a p l) (ho : sk = true → opens ≠ [])
    (hq : Held units q cs p l) (hq' : Held units' q' cs' p l) : Same F units units' (loopOf F units (rep F depth sk a q) cs) (loopOf F units' (rep F depth sk a q') cs') := by
  obtain ⟨b, p1, l1, o1, h1, h2, h3, h4⟩ := path' (F := F) hd hf ho
  obtain ⟨q1, cs1, h5, h6⟩ := h4 units q cs hq
  obtain ⟨q2, cs2, h7, h8⟩ := h4 units' q' cs' hq'
  rw [h6.loop, h8.loop]
  have fin : l1 = [] → Same F units units' (loopOf F units (rep F depth sk b q1) cs1) (loopOf F units' (rep F depth sk b q2) cs2) := by
    rintro rfl
    obtain ⟨rfl, _⟩ := held_done h5
    obtain ⟨rfl, _⟩ := held_done h7
    exact eof_same ⟨depth, sk, b, p1, [], o1, q1, q2, hd, h2, h3, h5, h7, rfl, rfl⟩
  cases b with
  | err e => rw [rep_err, rep_err, loop_error, loop_error]; exact ⟨rfl, .dead⟩
  | emit e s =>
    rw [rep_emit h1, rep_emit h1, loop_event h2.ok.1, loop_event h2.ok.1]
    exact ⟨rfl, twin_event h2 hd h5 h7⟩
  | read c f k => exact fin h1
  | wait a => exact fin h2.ok
  | unread c a => exact h1.elim
  | go s => exact h1.elim

theorem fit_start (hf : Fine l) (he : EofLast l) : Fit [] (.go {}) [] l := by
  refine ⟨?_, ⟨rfl, (by rintro x ⟨⟩), over_none⟩, he, by simpa using hf, ?_, fun _ => rfl⟩
  · rintro x ⟨⟩
  · exact ⟨⟨rfl, rfl⟩, (by rintro ⟨⟩), (by rintro ⟨⟩), ⟨fun _ => rfl, fun _ => ⟨rfl, rfl⟩, by rintro ⟨⟩⟩⟩

/-- One request to the two callers. -/
theorem send_same {st st' : Blocking.State Status} (h : Twin F units units' st st') (cmd : Cmd) :
    Same F units units' (Blocking.send (TextReader.send F units) IonEvent.eventType ION_STREAM_END_EVENT st cmd) (Blocking.send (TextReader.send F units') IonEvent.eventType ION_STREAM_END_EVENT st' cmd) := by
  have err : ∀ {e : PyErr} {cs cs' : List Bytes}, Same F units units' (loopOf F units (.error e, .dead) cs) (loopOf F units' (.error e, .dead) cs') := by
    intro e cs cs'
    rw [loop_error, loop_error]; exact ⟨rfl, .dead⟩
  cases h with
  | ended => exact ⟨rfl, .dead⟩
  | dead => exact ⟨rfl, .dead⟩
  | fresh h1 h2 h3 h4 =>
    cases cmd with
    | next => exact loop_same (sk := false) (Int.le_refl 0) (fit_start h3 h4) (by rintro ⟨⟩) h1 h2
    | data d => exact err
    | skip => exact err
  | @paused e s q q' depth cs cs' p l opens h1 h2 h3 h4 h5 =>
    cases cmd with
    | next => exact loop_same (sk := false) h4 h3 (by rintro ⟨⟩) h1 h2
    | data d => exact err
    | skip =>
      simp only [Blocking.send, TextReader.send]
      split
      · exact err
      · rename_i hn
        exact loop_same (sk := true) h4 h3 (fun _ ho => hn (h5 ho)) h1 h2

/-- Any requests to the two callers. -/
theorem run_same (cmds : List Cmd) : ∀ {st st' : Blocking.State Status}, Twin F units units' st st' →
    Blocking.run (TextReader.send F units) IonEvent.eventType ION_STREAM_END_EVENT st cmds = Blocking.run (TextReader.send F units') IonEvent.eventType ION_STREAM_END_EVENT st' cmds := by
  induction cmds with
  | nil => intros; rfl
  | cons cmd cmds ih =>
    intro st st' h
    obtain ⟨h1, h2⟩ := send_same h cmd
    simp only [Blocking.run]
    cases hr : Blocking.send (TextReader.send F units) IonEvent.eventType ION_STREAM_END_EVENT st cmd with
    | mk x y =>
      cases hr' : Blocking.send (TextReader.send F units') IonEvent.eventType ION_STREAM_END_EVENT st' cmd with
      | mk x' y' =>
        rw [hr, hr'] at h1 h2
        dsimp only at h1 h2
        subst h1
        cases x with
        | ok e => dsimp only; rw [ih h2]
        | error e => rfl

end Ion.TextReader.Whole

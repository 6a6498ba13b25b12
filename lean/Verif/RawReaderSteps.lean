import Verif.RawReaderLemmas
import Verif.TimestampSpec
set_option linter.unusedSimpArgs false
/-!
# The raw binary reader: how the handlers consume their input

`Leads o cs o' cs'`: from outcome `o`, with the chunks `cs` still to come, the reader arrives at outcome `o'` with the
chunks `cs'` still to come.  `Gets` is the corresponding "weakest precondition": either the post-condition is reached,
or input is missing and the reader has asked for more (`INCOMPLETE`).
-/
namespace Ion.RawReader
open Ion Ion.Queue Ion.Fields Ion.Fields.Spec Ion.Scalars Ion.Scalars.Spec Ion.Spec

/-- From an outcome to a later one, with chunks arriving on request. -/
inductive Leads : Outcome → List Bytes → Outcome → List Bytes → Prop
  | here (o : Outcome) (cs : List Bytes) : Leads o cs o cs
  | step {m : Machine} {cs : List Bytes} {o : Outcome} {cs' : List Bytes} : Leads (micro m) cs o cs' → Leads (.cont m) cs o cs'
  | data {b : Bool} {m : Machine} {d : Bytes} {cs : List Bytes} {o : Outcome} {cs' : List Bytes} {length : Int}
      {skip atEnd : Bool} {task : Task} : m.ctl = .read length skip atEnd task → d ≠ [] →
      Leads (.cont ⟨(feed m.queue length skip d).1, m.stack, .read (feed m.queue length skip d).2 skip false task⟩) cs o cs' →
      Leads (.block b m) (d :: cs) o cs'

theorem Leads.trans {a b c : Outcome} {ca cb cc : List Bytes} (h1 : Leads a ca b cb) (h2 : Leads b cb c cc) :
    Leads a ca c cc := by
  induction h1 with
  | here => exact h2
  | step _ ih => exact .step (ih h2)
  | data h hd _ ih => exact .data h hd (ih h2)

/-- What the user sees is the same from both ends. -/
theorem Leads.absorb {o o' : Outcome} {cs cs' : List Bytes} (h : Leads o cs o' cs') :
    absorb (deliver (finish o)) cs = RawReader.absorb (deliver (finish o')) cs' := by
  induction h with
  | here => rfl
  | step _ ih => rw [← ih]; show RawReader.absorb (deliver (run _)) _ = _; rw [run_eq]
  | @data b m d cs o cs' length skip atEnd task hc hd _ ih =>
    rw [← ih]
    have hsend : ∀ b, send (.waiting m.queue m.stack length skip b task) (.data d)
        = deliver (run ⟨(feed m.queue length skip d).1, m.stack, .read (feed m.queue length skip d).2 skip false task⟩) := by
      intro b
      simp [send, hd]
    have hdel : ∀ b, deliver (.block b m) = (.ok (if b then ION_STREAM_END_EVENT else ION_STREAM_INCOMPLETE_EVENT),
        .waiting m.queue m.stack length skip b task) := by
      intro b; simp only [deliver, hc]
    show RawReader.absorb (deliver (.block b m)) _ = _
    rw [hdel]
    show (if _ then _ else _) = _
    rw [if_pos (by cases b <;> rfl), hsend]
    rfl

/-- The post-condition is reached, or some of the input is missing and the reader waits for it. -/
def Gets (miss : Bytes) (o : Outcome) (cs : List Bytes) (post : Outcome → List Bytes → Prop) : Prop :=
  (∃ o' cs', Leads o cs o' cs' ∧ post o' cs') ∨ (miss ≠ [] ∧ ∃ m, (∃ l sk a t, m.ctl = .read l sk a t) ∧ Leads o cs (.block false m) [])

theorem Gets.pure {miss : Bytes} {o : Outcome} {cs : List Bytes} {post : Outcome → List Bytes → Prop} (h : post o cs) :
    Gets miss o cs post := .inl ⟨o, cs, .here _ _, h⟩

theorem Gets.bind {miss : Bytes} {o : Outcome} {cs : List Bytes} {p p' : Outcome → List Bytes → Prop}
    (h : Gets miss o cs p) (h' : ∀ o' cs', p o' cs' → Gets miss o' cs' p') : Gets miss o cs p' := by
  rcases h with ⟨o', cs', hl, hp⟩ | ⟨hm, m, hctl, hl⟩
  · rcases h' o' cs' hp with ⟨o2, cs2, hl2, hp2⟩ | ⟨hm, m, hctl, hl2⟩
    · exact .inl ⟨o2, cs2, hl.trans hl2, hp2⟩
    · exact .inr ⟨hm, m, hctl, hl.trans hl2⟩
  · exact .inr ⟨hm, m, hctl, hl⟩

theorem Gets.step {miss : Bytes} {m : Machine} {cs : List Bytes} {post : Outcome → List Bytes → Prop}
    (h : Gets miss (micro m) cs post) : Gets miss (.cont m) cs post := by
  rcases h with ⟨o', cs', hl, hp⟩ | ⟨hm, m', hctl, hl⟩
  · exact .inl ⟨o', cs', .step hl, hp⟩
  · exact .inr ⟨hm, m', hctl, .step hl⟩

/-- The reader is at position `pos`; the input from there on is `input`, of which `miss`, the end, will not arrive. -/
def At (q : Queue) (cs : List Bytes) (pos : Nat) (input miss : Bytes) : Prop :=
  ∃ f, Rel q f ∧ f.consumed.length = pos ∧ f.rest ++ cs.flatten ++ miss = input ∧ ∀ c ∈ cs, c ≠ []

/-- No input is left, unless it is missing. -/
def Dry (q : Queue) (cs : List Bytes) : Prop := q.size = 0 ∧ cs = []

/-- The first `n` positions are within the limit. -/
def LimOk (depth : Nat) (limit : Option Int) (n : Nat) : Prop := depth = 0 ∨ ∃ l : Int, limit = some l ∧ (n : Int) ≤ l

theorem LimOk.mono {depth : Nat} {limit : Option Int} {n k : Nat} (h : LimOk depth limit n) (hk : k ≤ n) :
    LimOk depth limit k := by
  rcases h with h | ⟨l, h1, h2⟩
  · exact .inl h
  · exact .inr ⟨l, h1, by omega⟩

theorem LimOk.remaining {depth : Nat} {limit : Option Int} {n : Nat} {q : Queue} {pos : Nat} (h : LimOk depth limit (pos + n))
    (hp : q.position = pos) : ∃ r, remaining depth limit q = .ok r ∧ overruns r n = false := by
  unfold RawReader.remaining
  rcases h with h | ⟨l, h1, h2⟩
  · exact ⟨none, by simp [h], rfl⟩
  · by_cases hd : depth = 0
    · exact ⟨none, by simp [hd], rfl⟩
    · refine ⟨some (l - q.position), by simp [hd, h1], ?_⟩
      simp only [overruns, decide_eq_false_iff_not]
      push_cast at h2
      omega

theorem rel_extend {q : Queue} {f : Queue.Spec.Flat UInt8} (h : Rel q f) (d : Bytes) (hd : d ≠ []) :
    Rel (q.extend d) ⟨f.consumed, f.rest ++ d⟩ := (rel_step h (.extend d) hd).2

theorem At.extend {q : Queue} {d : Bytes} {cs : List Bytes} {pos : Nat} {input miss : Bytes}
    (h : At q (d :: cs) pos input miss) : At (q.extend d) cs pos input miss := by
  obtain ⟨f, hr, hp, hi, hc⟩ := h
  exact ⟨_, rel_extend hr d (hc d (by simp)), hp, by rw [← hi]; simp, fun c hcm => hc c (by simp [hcm])⟩

/-- Reading `a`: the reader waits until it is all there. -/
theorem read_gets {miss a b : Bytes} {stack : List Frame} {task : Task} {pos : Nat} : ∀ (cs : List Bytes) (q : Queue) (length : Int)
    (atEnd : Bool), At q cs pos (a ++ b) miss → length = a.length - q.size → (atEnd = true → length ≤ 0 ∨ cs ≠ []) →
    Gets miss (.cont ⟨q, stack, .read length false atEnd task⟩) cs
      (fun o' cs' => ∃ q', o' = resume q' stack task ∧ At q' cs' pos (a ++ b) miss ∧ (a.length : Int) ≤ q'.size) := by
  intro cs
  induction cs with
  | nil =>
    intro q length atEnd hat hlen hend
    by_cases hl : length ≤ 0
    · refine .step ?_
      simp only [micro, hl, if_true]
      exact .step (.pure ⟨q, rfl, hat, by omega⟩)
    · have : atEnd = false := by
        cases atEnd with
        | false => rfl
        | true => rcases hend rfl with h | h
                  · exact absurd h hl
                  · exact absurd rfl h
      subst this
      refine .inr ⟨?_, ⟨q, stack, .read length false false task⟩, ⟨_, _, _, _, rfl⟩, .step ?_⟩
      · rintro rfl
        obtain ⟨f, hr, hp, hi, -⟩ := hat
        have hs := hr.size
        have := congrArg List.length hi
        simp at this
        omega
      · simp only [micro, hl, if_false]; exact .here _ _
  | cons d ds ih =>
    intro q length atEnd hat hlen hend
    by_cases hl : length ≤ 0
    · refine .step ?_
      simp only [micro, hl, if_true]
      exact .step (.pure ⟨q, rfl, hat, by omega⟩)
    · refine .step ?_
      simp only [micro, hl, if_false]
      have hd : d ≠ [] := by obtain ⟨f, -, -, -, hc⟩ := hat; exact hc d (by simp)
      have := ih (q.extend d) (length - d.length) false hat.extend (by simp only [BufferQueue.extend]; omega) (by simp)
      rcases this with ⟨o', cs', hl2, hp⟩ | ⟨hm, m', hctl, hl2⟩
      · exact .inl ⟨o', cs', .data rfl hd (by simpa [feed] using hl2), hp⟩
      · exact .inr ⟨hm, m', hctl, .data rfl hd (by simpa [feed] using hl2)⟩

theorem startRead_gets {miss a b : Bytes} {stack : List Frame} {task : Task} {pos : Nat} {cs : List Bytes} {q : Queue}
    {depth : Nat} {limit : Option Int} {atEnd : Bool} (hat : At q cs pos (a ++ b) miss)
    (hlim : LimOk depth limit (pos + a.length)) (hend : atEnd = true → a.length ≤ 1 ∧ ¬ Dry q cs) :
    Gets miss (startRead q stack depth limit a.length false atEnd task) cs
      (fun o' cs' => ∃ q', o' = resume q' stack task ∧ At q' cs' pos (a ++ b) miss ∧ (a.length : Int) ≤ q'.size) := by
  have hp : q.position = pos := by obtain ⟨f, hr, hp, -⟩ := hat; rw [hr.pos, hp]
  have hs : 0 ≤ q.size := by obtain ⟨f, hr, -⟩ := hat; have := hr.size; omega
  obtain ⟨r, hr, ho⟩ := hlim.remaining hp
  unfold startRead
  simp only [hr, ho, Bool.false_eq_true, if_false]
  refine read_gets cs q _ _ hat rfl ?_
  intro h
  simp only [Bool.and_eq_true] at h
  obtain ⟨h1, h2⟩ := hend h.1
  simp only [Dry, not_and] at h2
  by_cases hz : q.size = 0
  · exact .inr (h2 hz)
  · left; omega

theorem At.read {miss a b : Bytes} {pos : Nat} {cs : List Bytes} {q : Queue} (hat : At q cs pos (a ++ b) miss)
    (hs : (a.length : Int) ≤ q.size) : ∃ q', q.read a.length = .ok (a, q') ∧ At q' cs (pos + a.length) b miss := by
  obtain ⟨f, hr, hp, hi, hc⟩ := hat
  have hsz := hr.size
  have hle : a.length ≤ f.rest.length := by omega
  obtain ⟨q', h1, h2⟩ := rel_read hr a.length hle false
  have htake : f.rest.take a.length = a := by
    have := congrArg (List.take a.length) hi
    rw [List.append_assoc, List.take_append_of_le_length hle] at this
    simpa using this
  have hdrop : f.rest.drop a.length ++ cs.flatten ++ miss = b := by
    have := congrArg (List.drop a.length) hi
    rw [List.append_assoc, List.drop_append_of_le_length hle] at this
    simpa using this
  refine ⟨q', by rw [h1]; simp [htake], _, h2, ?_, hdrop, hc⟩
  simp [Queue.Spec.Flat.advance, hp]; omega

theorem At.readByte {miss b : Bytes} {h : UInt8} {pos : Nat} {cs : List Bytes} {q : Queue} (hat : At q cs pos (h :: b) miss)
    (hs : 1 ≤ q.size) : ∃ q', q.readByte = .ok (h, q') ∧ At q' cs (pos + 1) b miss := by
  obtain ⟨f, hr, hp, hi, hc⟩ := hat
  have hsz := hr.size
  obtain ⟨c, r⟩ := f
  cases r with
  | nil => simp at hsz; omega
  | cons x r =>
    simp only [List.cons_append, List.cons.injEq] at hi
    obtain ⟨rfl, hi⟩ := hi
    obtain ⟨h1, h2⟩ := rel_step hr .readByte trivial
    unfold step at h1 h2
    simp only [Queue.Spec.Flat.step] at h1 h2
    cases hq : q.readByte with
    | error e => rw [hq] at h1; simp at h1
    | ok v =>
      obtain ⟨v, q'⟩ := v
      rw [hq] at h1 h2
      simp only [Out.byte.injEq] at h1
      subst h1
      refine ⟨q', rfl, _, h2, ?_, ?_, hc⟩
      · simp [Queue.Spec.Flat.advance]; simpa using hp
      · simpa [Queue.Spec.Flat.advance] using hi

/-- A VarUInt field. -/
theorem varUInt_gets {miss b : Bytes} {stack : List Frame} {ctx : Ctx} {use : VarUse} {bs : Bytes} (hb : Delimited bs) :
    ∀ {pos : Nat} {cs : List Bytes} {q : Queue} {v : Nat}, At q cs pos (bs ++ b) miss →
    LimOk ctx.depth ctx.limit (pos + bs.length) →
    Gets miss (.cont ⟨q, stack, .varUInt ctx v use⟩) cs
      (fun o' cs' => ∃ q', o' = useVar q' stack ctx (base128 v bs) use ∧ At q' cs' (pos + bs.length) b miss) := by
  have byte : ∀ {x : UInt8} {xs : Bytes} {pos : Nat} {cs : List Bytes} {q : Queue} {v : Nat}, At q cs pos (x :: xs) miss →
      LimOk ctx.depth ctx.limit (pos + 1) →
      Gets miss (.cont ⟨q, stack, .varUInt ctx v use⟩) cs (fun o' cs' => ∃ q', o' = resume q' stack (.varByte ctx v use) ∧
        At q' cs' pos (x :: xs) miss ∧ 1 ≤ q'.size) := by
    intro x xs pos cs q v hat hlim
    have hsz : 0 ≤ q.size := by obtain ⟨f, hr, -⟩ := hat; have := hr.size; omega
    refine .step ?_
    simp only [micro]
    split
    · exact startRead_gets (a := [x]) (b := xs) hat hlim (by simp)
    · exact .step (.pure ⟨q, rfl, hat, by omega⟩)
  induction hb with
  | last x hx =>
    intro pos cs q v hat hlim
    refine (byte hat hlim).bind ?_
    rintro o' cs' ⟨q', rfl, hat', hs⟩
    obtain ⟨q2, h1, h2⟩ := hat'.readByte hs
    refine .pure ⟨q2, ?_, h2⟩
    simp only [resume, h1]
    rw [if_pos ((and_80 _).2 (by have := uint8_lt x; omega)), step_7]; rfl
  | more x xs hx _ ih =>
    intro pos cs q v hat hlim
    refine (byte hat (hlim.mono (by simp))).bind ?_
    rintro o' cs' ⟨q', rfl, hat', hs⟩
    obtain ⟨q2, h1, h2⟩ := hat'.readByte hs
    have := ih (v := v * 128 + x.toNat % 128) h2 (hlim.mono (by simp; omega))
    have heq : resume q' stack (.varByte ctx v use) = .cont ⟨q2, stack, .varUInt ctx (v * 128 + x.toNat % 128) use⟩ := by
      simp only [resume, h1]
      rw [if_neg (by rw [and_80]; omega), step_7]
    rw [heq]
    refine this.bind ?_
    rintro o2 cs2 ⟨q3, h3, h4⟩
    refine .pure ⟨q3, h3, ?_⟩
    simpa [Nat.add_assoc, Nat.add_comm 1] using h4

/-! ## Skipping -/

theorem skip_chunks {miss b : Bytes} {stack : List Frame} : ∀ (cs : List Bytes) (q : Queue) (a : Bytes) (pos : Nat),
    At q cs pos (a ++ b) miss → q.size = 0 → a ≠ [] →
    Gets miss (.cont ⟨q, stack, .read a.length true false .loop⟩) cs
      (fun o' cs' => ∃ q', o' = containerLoop q' stack ∧ At q' cs' (pos + a.length) b miss) := by
  intro cs
  induction cs with
  | nil =>
    intro q a pos hat hz ha
    have hl : ¬ ((a.length : Int) ≤ 0) := by have := List.length_pos_iff.2 ha; omega
    refine .inr ⟨?_, ⟨q, stack, .read a.length true false .loop⟩, ⟨_, _, _, _, rfl⟩, .step ?_⟩
    · rintro rfl
      obtain ⟨f, hr, hp, hi, -⟩ := hat
      have hs := hr.size
      have := congrArg List.length hi
      simp at this
      omega
    · simp only [micro, hl, if_false]; exact .here _ _
  | cons d ds ih =>
    intro q a pos hat hz ha
    have hl : ¬ ((a.length : Int) ≤ 0) := by have := List.length_pos_iff.2 ha; omega
    refine .step ?_
    simp only [micro, hl, if_false]
    obtain ⟨f, hr, hp, hi, hc⟩ := hat
    have hd : d ≠ [] := hc d (by simp)
    have hdl := List.length_pos_iff.2 hd
    have hrest : f.rest = [] := by
      have := hr.size; rw [hz] at this
      exact List.eq_nil_of_length_eq_zero (by omega)
    have hseg : q.segments = [] := by
      cases hsg : q.segments with
      | nil => rfl
      | cons s ss =>
        have h1 := hr.flat
        have h2 := hr.off
        rw [hsg] at h1 h2
        rw [hrest] at h1
        simp only [List.flatten_cons] at h1
        have := congrArg List.length h1
        simp at this
        omega
    have hoff : q.offset = 0 := by have h2 := hr.off; rw [hseg] at h2; exact h2
    have hpos := hr.pos
    simp only [hrest, List.nil_append, List.flatten_cons, List.append_assoc] at hi
    have key : Gets miss (.cont ⟨(feed q a.length true d).1, stack, .read (feed q a.length true d).2 true false .loop⟩) ds
        (fun o' cs' => ∃ q', o' = containerLoop q' stack ∧ At q' cs' (pos + a.length) b miss) := by
      by_cases hlt : a.length < d.length
      · -- the chunk holds more than is skipped
        have hfeed : feed q a.length true d = ({ segments := [d.drop a.length], offset := 0, size := (d.drop a.length).length, position := q.position + a.length }, (a.length : Int) - d.length) := by
          unfold feed
          simp only [if_true]
          rw [if_pos (by omega)]
          have e1 : d.length - ((a.length : Int) - d.length).natAbs = a.length := by omega
          simp only [e1, BufferQueue.extend, hseg, hoff, hz, List.nil_append]
          congr 2
          · simp
          · omega
        rw [hfeed]
        refine .step ?_
        simp only [micro]
        rw [if_pos (by omega)]
        refine .step (.step (.pure ⟨_, rfl, ?_⟩))
        have hd' : d.take a.length = a := by
          have := congrArg (List.take a.length) hi
          rw [List.take_append_of_le_length (by omega)] at this
          simpa using this
        refine ⟨⟨f.consumed ++ a, d.drop a.length⟩, ⟨?_, ?_, ?_, ?_, ?_⟩, ?_, ?_, ?_⟩
        · intro s hs
          simp only [List.mem_singleton] at hs
          subst hs
          intro h0
          have := congrArg List.length h0
          simp at this; omega
        · simp
        · simp; omega
        · rfl
        · simp [hpos]
        · simp [hp]
        · have := congrArg (List.drop a.length) hi
          rw [List.drop_append_of_le_length (by omega)] at this
          simpa using this
        · exact fun c hcm => hc c (by simp [hcm])
      · -- the whole chunk is skipped
        have hfeed : feed q a.length true d = ({ q with position := q.position + d.length }, (a.length : Int) - d.length) := by
          unfold feed
          simp only [if_true]
          rw [if_neg (by omega)]
        have hd' : a = d ++ a.drop d.length := by
          have := congrArg (List.take d.length) hi
          rw [List.take_append_of_le_length (by omega)] at this
          simp only [List.take_length] at this
          rw [List.take_append_of_le_length (by omega)] at this
          conv => lhs; rw [← List.take_append_drop d.length a, ← this]
        have hat2 : At { q with position := q.position + d.length } ds (pos + d.length) (a.drop d.length ++ b) miss := by
          refine ⟨⟨f.consumed ++ d, []⟩, ⟨?_, ?_, ?_, ?_, ?_⟩, ?_, ?_, ?_⟩
          · exact hr.nonempty
          · have := hr.flat; rw [hrest] at this; exact this
          · simp only [hseg]; exact hoff
          · simp [hz]
          · simp [hpos]
          · simp [hp]
          · rw [hd'] at hi
            simp only [List.append_assoc, List.append_cancel_left_eq] at hi
            simpa using hi
          · exact fun c hcm => hc c (by simp [hcm])
        rw [hfeed]
        by_cases heq : a.drop d.length = []
        · have hal : a.length = d.length := by
            have := congrArg List.length heq
            simp at this; omega
          refine .step ?_
          simp only [micro]
          rw [if_pos (by omega)]
          refine .step (.step (.pure ⟨_, rfl, ?_⟩))
          rw [hal]
          simpa [heq] using hat2
        · have := ih { q with position := q.position + d.length } (a.drop d.length) (pos + d.length) hat2 hz heq
          have e : ((a.drop d.length).length : Int) = (a.length : Int) - d.length := by
            simp; omega
          rw [e] at this
          have e2 : pos + d.length + (a.drop d.length).length = pos + a.length := by simp; omega
          rw [e2] at this
          exact this
    rcases key with ⟨o', cs', hl2, hp⟩ | ⟨hm, m', hctl, hl2⟩
    · exact .inl ⟨o', cs', .data rfl hd hl2, hp⟩
    · exact .inr ⟨hm, m', hctl, .data rfl hd hl2⟩

/-- Skipping `a`. -/
theorem skip_gets {miss a b : Bytes} {stack : List Frame} {pos : Nat} {cs : List Bytes} {q : Queue}
    {depth : Nat} {limit : Option Int} (hat : At q cs pos (a ++ b) miss) (hlim : LimOk depth limit (pos + a.length)) :
    Gets miss (startRead q stack depth limit a.length true false .loop) cs
      (fun o' cs' => ∃ q', o' = containerLoop q' stack ∧ At q' cs' (pos + a.length) b miss) := by
  have hat0 := hat
  obtain ⟨f, hr, hp, hi, hc⟩ := hat
  have hpos : q.position = pos := by rw [hr.pos, hp]
  have hs := hr.size
  obtain ⟨r, hrem, ho⟩ := hlim.remaining hpos
  unfold startRead
  simp only [hrem, ho, Bool.false_eq_true, if_false, if_true, Bool.false_and]
  by_cases hle : a.length ≤ f.rest.length
  · -- all of it is in the queue
    obtain ⟨h1, h2⟩ := rel_step hr (.skip a.length) trivial
    simp only [step, Queue.Spec.Flat.step] at h1 h2
    have hif : (if (a.length : Int) - q.size ≥ 0 then q.size else q.size + ((a.length : Int) - q.size)) = a.length := by
      split <;> omega
    rw [hif]
    cases hq : q.skip a.length with
    | error e => rw [hq] at h1; simp at h1
    | ok v =>
      obtain ⟨v, q'⟩ := v
      rw [hq] at h2
      simp only at h2 ⊢
      refine .step ?_
      simp only [micro]
      rw [if_pos (by omega)]
      refine .step (.step (.pure ⟨q', rfl, _, h2, ?_, ?_, hc⟩))
      · simp [Queue.Spec.Flat.advance, hp]; omega
      · have := congrArg (List.drop a.length) hi
        rw [List.append_assoc, List.drop_append_of_le_length hle] at this
        simpa [Queue.Spec.Flat.advance] using this
  · obtain ⟨h1, h2⟩ := rel_step hr (.skip f.rest.length) trivial
    simp only [step, Queue.Spec.Flat.step] at h1 h2
    have hif : (if (a.length : Int) - q.size ≥ 0 then q.size else q.size + ((a.length : Int) - q.size)) = f.rest.length := by
      split <;> omega
    rw [hif]
    cases hq : q.skip f.rest.length with
    | error e => rw [hq] at h1; simp at h1
    | ok v =>
      obtain ⟨v, q'⟩ := v
      rw [hq] at h2
      simp only at h2 ⊢
      have ha : a = f.rest ++ a.drop f.rest.length := by
        have := congrArg (List.take f.rest.length) hi
        rw [List.append_assoc, List.take_append_of_le_length (by omega), List.take_append_of_le_length (by omega)] at this
        simp only [List.take_length] at this
        conv => lhs; rw [← List.take_append_drop f.rest.length a, ← this]
      have hat' : At q' cs (pos + f.rest.length) (a.drop f.rest.length ++ b) miss := by
        refine ⟨_, h2, ?_, ?_, hc⟩
        · simp [Queue.Spec.Flat.advance, hp]
        · rw [ha] at hi
          simp only [List.append_assoc, List.append_cancel_left_eq] at hi
          simpa [Queue.Spec.Flat.advance] using hi
      have hz : q'.size = 0 := by have := h2.size; simp [Queue.Spec.Flat.advance] at this; exact this
      have hne : a.drop f.rest.length ≠ [] := by
        intro h0
        have := congrArg List.length h0
        simp at this; omega
      have := skip_chunks (stack := stack) cs q' _ _ hat' hz hne
      have e : ((a.drop f.rest.length).length : Int) = (a.length : Int) - q.size := by
        simp; omega
      rw [e] at this
      have e2 : pos + f.rest.length + (a.drop f.rest.length).length = pos + a.length := by simp; omega
      rw [e2] at this
      exact this

end Ion.RawReader

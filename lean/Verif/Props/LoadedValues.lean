import Verif.Props.EventValues
import Verif.Props.LoadWhole
import Verif.Props.Transcoding
import Verif.Props.Appending
import Verif.LoadErrors
set_option linter.unusedSimpArgs false
/-!
# C68: whatever `load` returns, from any data, is an Ion value

For every file, Ion or not, cut into any chunks: the objects that `load` returns mean Ion values (`Mean`), and the timestamps among
them are moments that exist (`Moment`).
-/
namespace Ion.Simple.Spec
open Ion Ion.Spec Ion.Simple Ion.EventValues

/-- A timestamp among these values is a moment that exists, and as `R` says. -/
def MomentValue (R : Timestamp → Prop) (v : PyVal) : Prop := ∀ tv, v = .timestamp tv → ∃ t, tv = .ts t ∧ Moment t ∧ R t

/-- Not a date with an offset. -/
def NoDateWithOffset (v : PyVal) : Prop :=
  ∀ t p, v = .timestamp (.ts t) → t.precision = some p → p.includesMinute = true ∨ t.dt.tz = none ∨ t.dt.tz = some 0

end Ion.Simple.Spec

namespace Ion.Simple
open Ion Ion.Spec Ion.Simple.Spec Ion.EventValues
open Ion.ManagedReader (Event Nests StatusOk)
open Ion.RawReader (Cmd)

/-! ## Events that fit -/

section
variable {R : Type} {raw : R → Cmd → Except PyErr IonEvent × R} {Inv : R → Prop} {K : Timestamp → Prop}

/-- The reader below keeps its invariant. -/
def SourceFits (Inv : R → Prop) : Source (ManagedReader.Status R) → Prop
  | .active S _ => ∀ r ctx hd, S = .live r ctx hd → Inv r
  | _ => True

theorem await_fits (hraw : ∀ r cmd, Inv r → (∀ e, (raw r cmd).1 = .ok e → ValueFits K e) ∧ Inv (raw r cmd).2) {r : Except PyErr Event} {S : ManagedReader.Status R} {cs : List Bytes}
    {o : Except PyErr Event × Source (ManagedReader.Status R)} (h : awaitEvent (ManagedReader.send raw) r S cs = some o) :
    (∀ e, r = .ok e → UserFits K e) → (∀ r ctx hd, S = .live r ctx hd → Inv r) → (∀ e, o.1 = .ok e → UserFits K e) ∧ SourceFits Inv o.2 := by
  refine awaitEvent.partial_correctness (ManagedReader.send raw) (fun r S cs o => (∀ e, r = .ok e → UserFits K e) → (∀ r ctx hd, S = .live r ctx hd → Inv r) →
    (∀ e, o.1 = .ok e → UserFits K e) ∧ SourceFits Inv o.2) ?_ r S cs o h
  intro f ih r S cs o h hr hs
  cases r with
  | error err => cases h; exact ⟨by rintro e ⟨⟩, trivial⟩
  | ok x =>
    dsimp only at h
    by_cases hx : x.eventType.isStreamSignal = true
    · rw [if_pos hx] at h
      cases cs with
      | nil =>
        dsimp only at h
        split at h
        · simp only [bind, Option.bind_eq_some_iff] at h
          obtain ⟨⟨y, S1⟩, h1, h2⟩ := h
          obtain ⟨k1, k2⟩ := managed_fits hraw hs h1
          exact ih _ _ _ _ h2 k1 k2
        · cases h
          refine ⟨?_, trivial⟩
          rintro e ⟨⟩
          exact ⟨trivial, fun hh => absurd rfl hh⟩
      | cons d ds =>
        simp only [bind, Option.bind_eq_some_iff] at h
        obtain ⟨⟨y, S1⟩, h1, h2⟩ := h
        obtain ⟨k1, k2⟩ := managed_fits hraw hs h1
        exact ih _ _ _ _ h2 k1 k2
    · rw [if_neg hx] at h
      cases h
      exact ⟨hr, hs⟩

theorem next_fits (hraw : ∀ r cmd, Inv r → (∀ e, (raw r cmd).1 = .ok e → ValueFits K e) ∧ Inv (raw r cmd).2) {src src' : Source (ManagedReader.Status R)} {e : Event}
    (h : nextEvent (ManagedReader.send raw) src = some (.ok e, src')) (hs : SourceFits Inv src) : UserFits K e ∧ SourceFits Inv src' := by
  cases src with
  | ended => cases h
  | dead => cases h
  | active S cs =>
    simp only [nextEvent, bind, Option.bind_eq_some_iff] at h
    obtain ⟨⟨y, S1⟩, h1, h2⟩ := h
    obtain ⟨k1, k2⟩ := managed_fits hraw hs h1
    obtain ⟨k3, k4⟩ := await_fits hraw h2 k1 k2
    exact ⟨k3 e rfl, k4⟩

end

/-! ## The objects -/

theorem valuesInAll_iff (os : List PyObj) (v : PyVal) : v ∈ valuesInAll os ↔ ∃ o ∈ os, v ∈ valuesIn o := by
  induction os with
  | nil => simp [valuesInAll]
  | cons o os ih => simp [valuesInAll, ih]

theorem valuesInItems_iff (l : List (Option SymArg × PyObj)) (v : PyVal) : v ∈ valuesInItems l ↔ ∃ p ∈ l, v ∈ valuesIn p.2 := by
  induction l with
  | nil => simp [valuesInItems]
  | cons p l ih => obtain ⟨k, o⟩ := p; simp [valuesInItems, ih]

theorem mem_groupPairs {ν : Type} {l : List (Option Text × ν)} {p : Option Text × ν} (h : p ∈ l) : p ∈ groupPairs l := by
  have hf : ∀ (l : List (Option Text)) (a : Option Text), a ∈ l → a ∈ firsts l := by
    intro l
    induction l with
    | nil => simp
    | cons b l ih =>
      intro a ha
      by_cases e : a = b
      · simp [firsts, e]
      · have := ih a (by simpa [e] using ha)
        simp [firsts, e, this]
  simp only [groupPairs, MM.Spec.vals, List.mem_flatMap, List.mem_map, List.mem_filter, decide_eq_true_eq]
  refine ⟨p.1, ?_, p.2, ⟨p, ⟨h, rfl⟩, rfl⟩, rfl⟩
  rw [firstKeys_eq]
  exact hf _ _ (List.mem_map_of_mem h)

/-- The values in a finished container are those of what was put into it. -/
theorem values_container (s : Bool) (ps : List (Option Text × PyObj)) (ty : IonType) (ks : List SymbolToken) (v : PyVal) :
    v ∈ valuesIn ((ps.foldl Out.push (if s then .dict [] else .list [])).obj ty ks) ↔ ∃ p ∈ ps, v ∈ valuesIn p.2 := by
  cases s with
  | true =>
    simp only [if_true, foldl_dict, Out.obj, valuesIn]
    rw [items_grouped, valuesInItems_iff]
    constructor
    · rintro ⟨q, hq, hv⟩
      obtain ⟨p, hp, rfl⟩ := List.mem_map.1 hq
      exact ⟨p, groupPairs_mem hp, hv⟩
    · rintro ⟨p, hp, hv⟩
      exact ⟨_, List.mem_map.2 ⟨p, mem_groupPairs hp, rfl⟩, hv⟩
  | false =>
    simp only [Bool.false_eq_true, if_false, foldl_list, List.nil_append, Out.obj, valuesIn]
    rw [valuesInAll_iff]
    constructor
    · rintro ⟨o, ho, hv⟩
      obtain ⟨p, hp, rfl⟩ := List.mem_map.1 ho
      exact ⟨p, hp, hv⟩
    · rintro ⟨p, hp, hv⟩
      exact ⟨_, List.mem_map_of_mem hp, hv⟩

theorem seen_all (ks : List SymbolToken) : allSome seenText (ks.map .tok) = some (ks.map (·.text)) := by
  induction ks with
  | nil => rfl
  | cons k ks ih => simp [allSome, seenText, ih]

/-- What is known of an object that was loaded. -/
def FineObj (K : Timestamp → Prop) (D : PyVal → Prop) (s : Bool) (p : Option Text × PyObj) : Prop :=
  (∀ v ∈ valuesIn p.2, MomentValue K v) ∧ ((∀ v ∈ valuesIn p.2, D v) → ∃ n, Loaded s p n)

theorem fine_all {K : Timestamp → Prop} {D : PyVal → Prop} {s : Bool} {ps : List (Option Text × PyObj)} (h : ∀ p ∈ ps, FineObj K D s p) (hd : ∀ p ∈ ps, ∀ v ∈ valuesIn p.2, D v) :
    ∃ ns, List.Forall₂ (Loaded s) ps ns := by
  induction ps with
  | nil => exact ⟨[], .nil⟩
  | cons p ps ih =>
    obtain ⟨ns, h1⟩ := ih (fun q hq => h q (by simp [hq])) (fun q hq => hd q (by simp [hq]))
    obtain ⟨n, h2⟩ := (h p (by simp)).2 (hd p (by simp))
    exact ⟨n :: ns, .cons h2 h1⟩

theorem moment_normal {t : Timestamp} (hm : Moment t) (hc : Truncated t) : t = timeValue (.ts t) := by
  obtain ⟨p, hp⟩ := Option.ne_none_iff_exists'.1 hm.precision
  simp only [timeValue, hp, Option.getD_some]
  by_cases hs : p = .second
  · subst hs
    rw [if_pos rfl]
    cases t
    simp only at hp
    subst hp
    rfl
  · rw [if_neg hs]
    obtain ⟨c1, _, _⟩ := hm.coarse p hp hs
    have c2 := hc p hp
    have c3 := hm.digits.1
    rw [c1] at c3
    cases t
    simp only at hp c1 c2 c3 ⊢
    subst hp c1
    rw [c2, c3]
    rfl

/-- The object of a scalar event whose value fits. -/
theorem scalar_fine {K : Timestamp → Prop} {D : PyVal → Prop} (hD : ∀ t, Moment t → K t → D (.timestamp (.ts t)) → Truncated t) {e : Event} {o : PyObj} (he : UserFits K e) (h : scalarObj e = .ok o) (s : Bool)
    (k : Option Text) : FineObj K D s (k, o) := by
  unfold scalarObj at h
  unfold UserFits at he
  cases hv : e.value with
  | error err => rw [hv] at h; cases h
  | ok w =>
    rw [hv] at h he
    obtain ⟨hf, hsc⟩ := he
    have loaded : ∀ {o : PyObj} {a : List (Option Text)} {x : Scalar (Option Text)}, Native o → (∀ b f, IsValue b seenText f o (.scalar f a x)) → ∃ n, Loaded s (k, o) n := by
      intro o a x h1 h2
      exact ⟨.scalar (if s then some k else none) a x, h1, rfl, fun b => ⟨_, h2 b _, .scalar _ _ _⟩⟩
    cases ht : e.ionType with
    | none => rw [ht] at h; cases h
    | some ty =>
      rw [ht] at h hf
      dsimp only at h
      cases w with
      | none =>
        dsimp only at h
        cases ha : e.annotations with
        | error err => rw [ha] at h; cases h
        | ok ann =>
          rw [ha] at h
          cases h
          exact ⟨by simp [valuesIn], fun _ => loaded trivial fun b f => .null f ty _ _ (seen_all ann)⟩
      | some w =>
        dsimp only at h
        have hnn : ¬ (ty = .null ∨ ty.isContainer = true) := by
          cases ty <;> simp [IonType.isContainer] <;> (cases w <;> simp [FitsWell] at hf)
        rw [if_neg hnn] at h
        cases hc : construct ty w with
        | error err => rw [hc] at h; cases h
        | ok x =>
          rw [hc] at h
          dsimp only at h
          cases ha : e.annotations with
          | error err => rw [ha] at h; cases h
          | ok ann =>
            rw [ha] at h
            cases h
            have key : MomentValue K x ∧ (D x → nativeScalar ty x ∧ ∃ y, scalarOf seenText ty x = some y) := by
              cases ty <;> cases w <;> simp only [FitsWell] at hf <;> simp only [construct] at hc
              case timestamp.timestamp tv =>
                cases tv with
                | dt d => exact absurd hf id
                | ts t =>
                  have hr : rebuildTime (.ts t) = .ok t := hf.1.again
                  rw [hr] at hc
                  cases hc
                  refine ⟨?_, fun hd => ?_⟩
                  · rintro tv ⟨⟩
                    exact ⟨t, rfl, hf⟩
                  · have htr := hD t hf.1 hf.2 hd
                    exact ⟨congrArg _ (moment_normal hf.1 htr), _, rfl⟩
              case symbol.sym k =>
                split at hc
                · cases hc
                · cases hc
                  refine ⟨by rintro tv ⟨⟩, fun _ => ⟨trivial, ?_⟩⟩
                  simp [scalarOf, asSymbol, seenText]
              all_goals
                cases hc
                refine ⟨by rintro tv ⟨⟩, fun hd => ⟨?_, ?_⟩⟩
                · first | trivial | (rename_i b; cases b <;> simp [nativeScalar])
                · simp [scalarOf, denote]
            refine ⟨?_, fun hd => ?_⟩
            · intro v hv
              simp only [valuesIn, List.mem_singleton] at hv
              subst hv
              exact key.1
            · obtain ⟨k1, y, k2⟩ := key.2 (hd x (by simp [valuesIn]))
              exact loaded (a := ann.map (·.text)) (x := y) k1 fun b f => .scalar f _ _ ty _ _ _ (.ion _ _) (seen_all ann) k2

/-- A container that is being filled. -/
def Filling (K : Timestamp → Prop) (D : PyVal → Prop) (s : Bool) (out : Out) : Prop :=
  ∃ ps : List (Option Text × PyObj), out = ps.foldl Out.push (if s then .dict [] else .list []) ∧ ∀ p ∈ ps, FineObj K D s p

theorem filling_add {K : Timestamp → Prop} {D : PyVal → Prop} {s : Bool} {out out' : Out} {e : Event} {o : PyObj} (hf : Filling K D s out) (ho : ∀ k, FineObj K D s (k, o)) (h : out.add e o = .ok out') :
    Filling K D s out' := by
  obtain ⟨ps, rfl, h2⟩ := hf
  have push : ∀ k, (ps.foldl Out.push (if s then .dict [] else .list [])).push (k, o) = out' → Filling K D s out' := by
    intro k hk
    refine ⟨ps ++ [(k, o)], by rw [List.foldl_append, ← hk]; rfl, ?_⟩
    intro p hp
    rcases List.mem_append.1 hp with hp | hp
    · exact h2 p hp
    · rw [List.mem_singleton.1 hp]; exact ho k
  cases hx : ps.foldl Out.push (if s then .dict [] else .list []) with
  | list l =>
    rw [hx] at h push
    cases h
    exact push none rfl
  | dict m =>
    rw [hx] at h push
    simp only [Out.add] at h
    split at h
    · cases h
    · cases h
    · rename_i k _
      cases h
      exact push k.text rfl

/-- The finished container. -/
theorem container_fine {K : Timestamp → Prop} {D : PyVal → Prop} {ty : CType} {out : Out} (h : Filling K D (ty = .struct) out) (ks : List SymbolToken) (s : Bool) (k : Option Text) :
    FineObj K D s (k, out.obj ty.ty ks) := by
  obtain ⟨ps, rfl, h2⟩ := h
  have hv := values_container (decide (ty = .struct)) ps ty.ty ks
  refine ⟨?_, fun hd => ?_⟩
  · intro v hm
    obtain ⟨p, hp, hpv⟩ := (hv v).1 hm
    exact (h2 p hp).1 v hpv
  · obtain ⟨ns, hns⟩ := fine_all h2 fun p hp v hpv => hd v ((hv v).2 ⟨p, hp, hpv⟩)
    have e : (if decide (ty = CType.struct) = true then (Out.dict []) else .list []) = (if ty.ty = .struct then Out.dict [] else .list []) := by
      cases ty <;> rfl
    rw [e]
    obtain ⟨k1, k2⟩ := loaded_container (ty := ty) (seen_all ks) hns
    refine ⟨.cont (if s then some k else none) (ks.map (·.text)) ty ns, k1, rfl, fun b => ?_⟩
    exact k2 b _

/-! ## The loop -/

section
variable {R : Type} {raw : R → Cmd → Except PyErr IonEvent × R} {Inv : R → Prop} {strict : Bool} {Inv' : List IonType → Bool → Bool → R → Prop} {K : Timestamp → Prop} {D : PyVal → Prop}

/-- A reader at some place in nested containers. -/
def Somewhere (raw : R → Cmd → Except PyErr IonEvent × R) (Inv' : List IonType → Bool → Bool → R → Prop) (src : Source (ManagedReader.Status R)) : Prop :=
  ∃ opens opened, SourceOk raw Inv' opens opened src

theorem loop_fine (N : Nests raw strict Inv') (hraw : ∀ r cmd, Inv r → (∀ e, (raw r cmd).1 = .ok e → ValueFits K e) ∧ Inv (raw r cmd).2)
    (hD : ∀ t, Moment t → K t → D (.timestamp (.ts t)) → Truncated t) {ty : IonEventType} {out : Out} {src : Source (ManagedReader.Status R)} {res : Except PyErr (Out × Source (ManagedReader.Status R))}
    (h : loadLoop (ManagedReader.send raw) ty out src = some res) : ∀ (s : Bool), Filling K D s out → Somewhere raw Inv' src → SourceFits Inv src → ∀ r, res = .ok r →
      Filling K D s r.1 ∧ Somewhere raw Inv' r.2 ∧ SourceFits Inv r.2 := by
  refine loadLoop.partial_correctness (ManagedReader.send raw) (fun ty out src res => ∀ (s : Bool), Filling K D s out → Somewhere raw Inv' src → SourceFits Inv src → ∀ r, res = .ok r →
      Filling K D s r.1 ∧ Somewhere raw Inv' r.2 ∧ SourceFits Inv r.2) ?_ ty out src res h
  intro f ih ty out src res h s ho hs hsf r hr
  subst hr
  simp only [bind, Option.bind_eq_some_iff] at h
  obtain ⟨⟨x, src1⟩, h1, h2⟩ := h
  cases x with
  | error err => cases h2
  | ok e =>
    dsimp only at h2
    obtain ⟨he, hsf1⟩ := next_fits hraw h1 hsf
    have hs1 : Somewhere raw Inv' src1 := by
      by_cases hend : e.eventType = .streamEnd
      · rw [next_end h1 hend]
        exact ⟨[], false, trivial⟩
      · obtain ⟨opens, opened, g⟩ := hs
        obtain ⟨_, opens', _, g2⟩ := next_nests N g h1 hend
        exact ⟨opens', _, g2⟩
    by_cases c1 : e.eventType = ty
    · rw [if_pos c1] at h2
      cases h2
      exact ⟨ho, hs1, hsf1⟩
    · rw [if_neg c1] at h2
      by_cases c2 : e.eventType = .containerStart
      · rw [if_pos c2] at h2
        have hct : ∃ ct : CType, e.ionType = some ct.ty := by
          obtain ⟨opens, opened, g⟩ := hs
          obtain ⟨_, opens', g1, _⟩ := next_nests N g h1 (by rw [c2]; simp)
          simp only [nestUser, c2] at g1
          cases hi : e.ionType with
          | none => rw [hi] at g1; simp at g1
          | some t =>
            rw [hi] at g1
            cases t <;> simp [IonType.isContainer] at g1
            · exact ⟨.list, rfl⟩
            · exact ⟨.sexp, rfl⟩
            · exact ⟨.struct, rfl⟩
        obtain ⟨ct, hct⟩ := hct
        cases hc : newContainer e with
        | error err => rw [hc] at h2; cases h2
        | ok c =>
          rw [hc] at h2
          simp only [Option.bind_eq_some_iff] at h2
          obtain ⟨q, h3, h4⟩ := h2
          obtain ⟨hc1, hc2⟩ : c.1 = (if ct.ty = .struct then .dict [] else .list []) ∧ c.2.1 = ct.ty := by
            unfold newContainer at hc
            rw [hct] at hc
            cases ha : e.annotations with
            | error err => rw [ha] at hc; cases hc
            | ok ann => rw [ha] at hc; cases hc; exact ⟨rfl, rfl⟩
          cases q with
          | error err => cases h4
          | ok q =>
            dsimp only at h4
            obtain ⟨k1, k2, k3⟩ := ih _ _ _ _ h3 (decide (ct = .struct)) ⟨[], by rw [hc1]; cases ct <;> rfl, by simp⟩ hs1 hsf1 q rfl
            cases ha : out.add e (q.1.obj c.2.1 c.2.2) with
            | error err => rw [ha] at h4; cases h4
            | ok out' =>
              rw [ha] at h4
              rw [hc2] at ha
              exact ih _ _ _ _ h4 s (filling_add ho (fun k => container_fine k1 _ s k) ha) k2 k3 r rfl
      · rw [if_neg c2] at h2
        by_cases c3 : e.eventType = .scalar
        · rw [if_pos c3] at h2
          cases hc : scalarObj e with
          | error err => rw [hc] at h2; cases h2
          | ok o =>
            rw [hc] at h2
            dsimp only at h2
            cases ha : out.add e o with
            | error err => rw [ha] at h2; cases h2
            | ok out' =>
              rw [ha] at h2
              exact ih _ _ _ _ h2 s (filling_add ho (fun k => scalar_fine hD he hc s k) ha) hs1 hsf1 r rfl
        · rw [if_neg c3] at h2
          exact ih _ _ _ _ h2 s ho hs1 hsf1 r rfl

theorem from_fine (N : Nests raw strict Inv') (hraw : ∀ r cmd, Inv r → (∀ e, (raw r cmd).1 = .ok e → ValueFits K e) ∧ Inv (raw r cmd).2)
    (hD : ∀ t, Moment t → K t → D (.timestamp (.ts t)) → Truncated t) {single : Bool} {src : Source (ManagedReader.Status R)} (hs : Somewhere raw Inv' src) (hsf : SourceFits Inv src) {objs : List PyObj}
    (h : loadFrom (ManagedReader.send raw) single src = some (.ok objs)) : (∀ v ∈ valuesInAll objs, MomentValue K v) ∧ ((∀ v ∈ valuesInAll objs, D v) → ∃ values, Mean objs values) := by
  simp only [loadFrom, bind, Option.bind_eq_some_iff] at h
  obtain ⟨res, h1, h2⟩ := h
  cases res with
  | error err => cases h2
  | ok p =>
    dsimp only at h2
    obtain ⟨⟨ps, k1, k2⟩, _, _⟩ := loop_fine N hraw hD h1 false ⟨[], rfl, by simp⟩ hs hsf p rfl
    split at h2
    · cases h2
    · cases h2
      have e : p.1.values = ps.map (·.2) := by
        rw [k1]
        simp [foldl_list, Out.values]
      rw [e]
      refine ⟨?_, fun hd => ?_⟩
      · intro v hv
        obtain ⟨o, ho, hv⟩ := (valuesInAll_iff _ _).1 hv
        obtain ⟨q, hq, rfl⟩ := List.mem_map.1 ho
        exact (k2 q hq).1 v hv
      · obtain ⟨ns, hns⟩ := fine_all k2 fun q hq v hv => hd v ((valuesInAll_iff _ _).2 ⟨q.2, List.mem_map_of_mem hq, hv⟩)
        refine ⟨ns, ?_, fun b => loaded_seq hns⟩
        intro o ho
        obtain ⟨q, hq, rfl⟩ := List.mem_map.1 ho
        exact loaded_native hns q hq

end

/-! ## The theorems -/

/-- **C68**, text.  Whatever the text is, Ion or not: the objects that `load` returns mean Ion values. -/
theorem C68_text (F : FloatText) (units : Bytes → List Nat) (catalog : Catalog) (single : Bool) (cs : List Bytes) (objs : List PyObj)
    (h : loadText F units catalog single cs = some (.ok objs)) :
    (∃ values, Mean objs values) ∧ ∀ v ∈ valuesInAll objs, MomentValue Truncated v := by
  obtain ⟨h1, h2⟩ := from_fine (Inv := Text.StatusT) (D := fun _ => True) ManagedReader.text_nests (fun r cmd hr => Text.send_t hr) (fun t _ h _ => h)
    ⟨[], false, by exact ⟨⟨false, .fresh, by simp⟩, by simp, by simp⟩⟩ (by rintro r ctx hd ⟨⟩; trivial) h
  exact ⟨h2 fun _ _ => trivial, h1⟩

/-- **C68**, binary: the same, if no date among the objects has an offset from UTC (see `C68_date_with_offset`). -/
theorem C68_binary_partial (catalog : Catalog) (single : Bool) (cs : List Bytes) (objs : List PyObj) (h : loadBinary catalog single cs = some (.ok objs)) :
    ((∀ v ∈ valuesInAll objs, NoDateWithOffset v) → ∃ values, Mean objs values) ∧ ∀ v ∈ valuesInAll objs, MomentValue TruncatedInUtc v := by
  obtain ⟨h1, h2⟩ := from_fine (Inv := fun _ => True) (D := NoDateWithOffset) ManagedReader.binary_nests (fun r cmd _ => ⟨fun e he => Binary.send_fits he, trivial⟩)
    (fun t _ h hd p hp => h p hp (hd t p rfl hp)) ⟨[], false, by exact ⟨⟨false, RawReader.statusOk_init, by simp⟩, by simp, by simp⟩⟩ (by intro r ctx hd _; trivial) h
  exact ⟨h2, h1⟩

theorem native_times {b : Bool} {sym : SymArg → Option (Option Text)} {os : List PyObj} {ns : List Val} (h : AreValues b sym os ns) :
    NativeAll os → ∀ v ∈ valuesInAll os, ∀ tv, v = .timestamp tv → tv = .ts (timeValue tv) := by
  refine AreValues.rec (motive_1 := fun _ o _ _ => Native o → ∀ v ∈ valuesIn o, ∀ tv, v = .timestamp tv → tv = .ts (timeValue tv))
    (motive_2 := fun os _ _ => NativeAll os → ∀ v ∈ valuesInAll os, ∀ tv, v = .timestamp tv → tv = .ts (timeValue tv))
    (motive_3 := fun items _ _ => NativeItems items → ∀ v ∈ valuesInItems items, ∀ tv, v = .timestamp tv → tv = .ts (timeValue tv)) ?_ ?_ ?_ ?_ ?_ ?_ ?_ ?_ ?_ h
  · intro f hn; exact absurd hn id
  · intro f ty ann a ha hn v hv; simp [valuesIn] at hv
  · intro f k v ty ann a x ht _ hx hn w hw tv htv
    simp only [valuesIn, List.mem_singleton] at hw
    subst hw
    subst htv
    cases ht with
    | plain c ty hd => exact absurd hn id
    | ion ty ann =>
      have : ty = .timestamp := by
        cases ty <;> simp [scalarOf, asSymbol, denote] at hx <;> rfl
      subst this
      exact hn
  · intro f k elems ty ann a ns ht _ _ _ ih hn v hv
    cases ht with
    | plain c ty hd => exact absurd hn id
    | ion ty ann => exact ih hn v hv
  · intro f k items ann a ns ht _ _ ih hn v hv
    cases ht with
    | plain c ty hd => exact absurd hn id
    | ion ty ann => exact ih hn v hv
  · intro _ v hv; simp [valuesInAll] at hv
  · intro o n os ns _ _ ih1 ih2 hn v hv
    rcases List.mem_append.1 hv with hv | hv
    · exact ih1 hn.1 v hv
    · exact ih2 hn.2 v hv
  · intro _ v hv; simp [valuesInItems] at hv
  · intro key name o n items ns _ _ _ ih1 ih2 hn v hv
    rcases List.mem_append.1 hv with hv | hv
    · exact ih1 hn.2.1 v hv
    · exact ih2 hn.2.2 v hv

/-- **C68**, binary, exactly: the objects mean Ion values if and only if every timestamp among them has the least values in the fields beyond its
precision, and by `C68_binary_partial` only a date with an offset can fail to. -/
theorem C68_binary_exactly (catalog : Catalog) (single : Bool) (cs : List Bytes) (objs : List PyObj) (h : loadBinary catalog single cs = some (.ok objs)) :
    (∃ values, Mean objs values) ↔ ∀ v ∈ valuesInAll objs, MomentValue Truncated v := by
  obtain ⟨h1, h2⟩ := from_fine (Inv := fun _ => True) (K := TruncatedInUtc) (D := MomentValue Truncated) ManagedReader.binary_nests (fun r cmd _ => ⟨fun e he => Binary.send_fits he, trivial⟩)
    (fun t _ _ hd => by obtain ⟨t', k1, _, k3⟩ := hd _ rfl; cases k1; exact k3) ⟨[], false, by exact ⟨⟨false, RawReader.statusOk_init, by simp⟩, by simp, by simp⟩⟩ (by intro r ctx hd _; trivial) h
  refine ⟨?_, h2⟩
  rintro ⟨values, hm⟩ v hv tv htv
  obtain ⟨t, rfl, k2, k3⟩ := h1 v hv tv htv
  obtain ⟨ns, hns, _⟩ := hm.2 false
  have ht := native_times hns ((nativeAll_iff _).2 hm.1) v hv _ htv
  refine ⟨t, rfl, k2, fun p hp => ?_⟩
  simp only [Scalars.TimeVal.ts.injEq, timeValue, hp, Option.getD_some] at ht
  by_cases hs : p = .second
  · subst hs; rfl
  · rw [if_neg hs] at ht
    exact (congrArg Timestamp.dt ht).symm

/-- **C68**, any file: the objects that `load` returns mean Ion values, unless there is a date with an offset among them (which takes
binary data), and their timestamps are moments that exist. -/
theorem C68_load_partial (F : FloatText) (catalog : Catalog) (single : Bool) (file : File) (objs : List PyObj) (h : load F catalog single file = some (.ok objs)) :
    ((∀ v ∈ valuesInAll objs, NoDateWithOffset v) → ∃ values, Mean objs values) ∧ ∀ v ∈ valuesInAll objs, MomentValue TruncatedInUtc v := by
  have weaken : ∀ {v : PyVal}, MomentValue Truncated v → MomentValue TruncatedInUtc v := by
    intro v hv tv htv
    obtain ⟨t, h1, h2, h3⟩ := hv tv htv
    exact ⟨t, h1, h2, fun p hp _ => h3 p hp⟩
  unfold load at h
  cases file with
  | str ps =>
    obtain ⟨h1, h2⟩ := C68_text _ _ _ _ _ _ h
    exact ⟨fun _ => h1, fun v hv => weaken (h2 v hv)⟩
  | bytes cs =>
    dsimp only at h
    cases hf : formatOf false cs.flatten with
    | text =>
      rw [hf] at h
      obtain ⟨h1, h2⟩ := C68_text _ _ _ _ _ _ h
      exact ⟨fun _ => h1, fun v hv => weaken (h2 v hv)⟩
    | binary =>
      rw [hf] at h
      exact C68_binary_partial _ _ _ _ h

/-- **C68** with C59: whatever was loaded, from any data, can be dumped and loaded again, in both formats, if the formats can express the values: the
objects that come back are equal to those that were dumped. -/
theorem C68_dump_again (F : FloatText) (catalog : Catalog) (single : Bool) (file : File) (objs : List PyObj) (h : load F catalog single file = some (.ok objs))
    (hd : ∀ v ∈ valuesInAll objs, NoDateWithOffset v) : ∃ values, Mean objs values ∧ ((∀ n ∈ values, ¬ SystemLike n) → ∀ (tupleAsSexp : Bool) (k : Kind),
      (InBinary values → ∃ doc, dumps none true tupleAsSexp (.seq k objs) = .ok doc ∧ ∃ objs', AllEqual objs objs' ∧ loadsBinary [] false doc = some (.ok objs')) ∧
      (InText values → ∀ (F' : FloatText), TextSpec.Faithful F' → ∀ (indent : Option Text), (∀ t, indent = some t → TextSpec.IsBlank t) → ∀ (omitVersionMarker : Bool),
        ∃ t, dumpsText F' indent omitVersionMarker true tupleAsSexp (.seq k objs) = .ok t ∧ ∃ objs', AllEqual objs objs' ∧ LoadsAs F' [] t objs')) := by
  obtain ⟨values, hm⟩ := (C68_load_partial F catalog single file objs h).1 hd
  refine ⟨values, hm, fun hu tupleAsSexp k => ⟨fun hb => ?_, fun ht F' hF' indent hi omitVersionMarker => ?_⟩⟩
  · obtain ⟨doc, h1, objs', h2, _, h3, _⟩ := dump_mean_binary hm hb hu tupleAsSexp k
    exact ⟨doc, h1, objs', mean_equal (P := BinaryScalar) (fun t ht => ht.1.1) hb hm h2, h3⟩
  · obtain ⟨t, h1, objs', h2, _, h3⟩ := dump_mean_text hm ht hu F' hF' indent hi omitVersionMarker tupleAsSexp k [] ManagedReader.registered_empty
    exact ⟨t, h1, objs', mean_equal (P := TextScalar) (fun t ht => ht.1.1) ht.1 hm h2, h3⟩

/-! ## What is missing -/

/-- A test of what `load` returns from binary data, computed. -/
def binaryTest (n : Nat) (test : List PyObj → Bool) (cs : List Bytes) : Bool :=
  match binaryLoopN n n .streamEnd (.list []) (.active (ManagedReader.init []) cs) with
  | some (.ok p) => test p.1.values
  | _ => false

theorem binaryTest_sound {n : Nat} {test : List PyObj → Bool} {cs : List Bytes} (h : binaryTest n test cs = true) : ∃ vs, loadBinary [] false cs = some (.ok vs) ∧ test vs = true := by
  unfold binaryTest at h
  split at h
  · rename_i p h1
    refine ⟨p.1.values, ?_, h⟩
    unfold loadBinary loadFrom
    rw [show loadLoop (ManagedReader.send RawReader.send) .streamEnd (.list []) (.active (ManagedReader.init []) cs) = some (.ok p) from binaryLoopN_sound h1]
    simp
  · cases h

/-- Whether the only object is this timestamp. -/
def onlyTime (t : Timestamp) : List PyObj → Bool
  | [.scalar (.ion (some .timestamp) []) (.timestamp (.ts t'))] => t' = t
  | _ => false

/-- **C68** (negative).  In binary data, the year 2000 with the offset `+00:01`, which is no Ion timestamp, is loaded as the first minute of 2000 with
that offset, with the precision of a year: an object that stands for no Ion value. -/
theorem C68_date_with_offset : ∃ objs, loadBinary [] false [[0xE0, 0x01, 0x00, 0xEA, 0x63, 0x81, 0x0F, 0xD0]] = some (.ok objs) ∧
    onlyTime ⟨⟨2000, 1, 1, 0, 1, 0, 0, some 60000000⟩, some .year, 0, ⟨false, 0, 0⟩⟩ objs = true ∧ ¬ ∃ values, Mean objs values := by
  obtain ⟨objs, h1, h2⟩ := binaryTest_sound (n := 20) (test := onlyTime ⟨⟨2000, 1, 1, 0, 1, 0, 0, some 60000000⟩, some .year, 0, ⟨false, 0, 0⟩⟩) (cs := [[0xE0, 0x01, 0x00, 0xEA, 0x63, 0x81, 0x0F, 0xD0]])
    (by with_unfolding_all rfl)
  refine ⟨objs, h1, h2, ?_⟩
  rintro ⟨values, hm⟩
  unfold onlyTime at h2
  split at h2
  · simp only [decide_eq_true_eq] at h2
    subst h2
    have := hm.1 _ (List.mem_singleton.2 rfl)
    simp only [Native, nativeScalar] at this
    exact absurd this (by decide)
  · cases h2

/-- The theorems apply, to text. -/
example (F : FloatText) : ∃ objs, loadText F TextReader.byteUnits [] false [TextReader.bytesOf ['2','0','0','0','-','0','2','T',' ','{','a',':','1','}']] = some (.ok objs) ∧ ∃ values, Mean objs values := by
  obtain ⟨objs, h1, _⟩ := loadTest_sound (F := F) (units := TextReader.byteUnits) (m := 80) (n := 60) (test := fun l => l.length = 2) (cs := [TextReader.bytesOf ['2','0','0','0','-','0','2','T',' ','{','a',':','1','}']]) rfl
  exact ⟨objs, h1, (C68_text F _ _ _ _ _ h1).1⟩

/-- ... and to binary data, with a date of unknown offset. -/
example : ∃ objs, loadBinary [] false [[0xE0, 0x01, 0x00, 0xEA, 0x63, 0xC0, 0x0F, 0xD0]] = some (.ok objs) ∧ (∀ v ∈ valuesInAll objs, NoDateWithOffset v) ∧
    onlyTime ⟨⟨2000, 1, 1, 0, 0, 0, 0, none⟩, some .year, 0, ⟨false, 0, 0⟩⟩ objs = true := by
  obtain ⟨objs, h1, h2⟩ := binaryTest_sound (n := 20) (test := onlyTime ⟨⟨2000, 1, 1, 0, 0, 0, 0, none⟩, some .year, 0, ⟨false, 0, 0⟩⟩) (cs := [[0xE0, 0x01, 0x00, 0xEA, 0x63, 0xC0, 0x0F, 0xD0]])
    (by with_unfolding_all rfl)
  refine ⟨objs, h1, ?_, h2⟩
  unfold onlyTime at h2
  split at h2
  · simp only [decide_eq_true_eq] at h2
    subst h2
    intro v hv t p ht _
    simp only [valuesInAll, valuesIn, List.append_nil, List.mem_singleton] at hv
    subst hv
    cases ht
    exact .inr (.inl rfl)
  · cases h2

end Ion.Simple

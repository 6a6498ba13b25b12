import Verif.Props.TextDumpLoad
import Verif.Props.Loading
import Verif.Props.Equivalence

set_option linter.unusedSimpArgs false
set_option linter.unusedVariables false

/-! # Transcoding: what `load` returned can be given to `dump` again (C59)

What `load` returns for a document, text or binary, can be written again with `dump`, in the other format or in the same one,
and `load` of that output returns objects that mean the same values. -/

namespace Ion.Simple.Spec
open Ion Ion.Spec Ion.ManagedWriter

/-! ## Values that a format can express -/

mutual
/-- Every scalar of the value has `P`, and every symbol in it (field names, annotations, symbol values) has a known text, with `Q`. -/
def Node.Holds (P : Scalar (Option Text) → Prop) (Q : Text → Prop) : Val → Prop
  | .scalar f a x => (∀ s, f = some s → ∃ t, s = some t ∧ Q t) ∧ (∀ s ∈ a, ∃ t, s = some t ∧ Q t) ∧ P x ∧ (∀ s, x = .symbol s → ∃ t, s = some t ∧ Q t)
  | .cont f a _ items => (∀ s, f = some s → ∃ t, s = some t ∧ Q t) ∧ (∀ s ∈ a, ∃ t, s = some t ∧ Q t) ∧ Node.HoldsAll P Q items
/-- The same for all values of a list. -/
def Node.HoldsAll (P : Scalar (Option Text) → Prop) (Q : Text → Prop) : List Val → Prop
  | [] => True
  | n :: ns => Node.Holds P Q n ∧ Node.HoldsAll P Q ns
end

/-- A timestamp within the limits of C08: in normal form, its offset in whole minutes, at most 28 digits of the second. -/
def PortableTime (t : Timestamp) : Prop := (∃ p, IsTimeValue t p) ∧ Scalars.OffsetOk t.dt.tz ∧ Scalars.FracOk t.frac

/-- The scalars that the binary format and the decimal context of the code can express (C05, C06, C08). -/
def BinaryScalar : Scalar (Option Text) → Prop
  | .string t => EncodableText t
  | .decimal d => numDigits d.coeff ≤ 1000000 ∧ (d.exp.natAbs : Int) ≤ 2 * (999999 + numDigits d.coeff) ∧ Scalars.ReadRange d
  | .timestamp t => PortableTime t ∧ ∀ o, t.dt.tz = some o → ∃ u, t.dt.addMicros (-o) = .ok u
  | _ => True

/-- The scalars that text can express (C38): no payload of a NaN, no date with offset, no negative zero fraction. -/
def TextScalar : Scalar (Option Text) → Prop
  | .string t => TextSpec.IsUnicode t
  | .float bits => TextSpec.Finite bits ∨ bits.toNat % 2 ^ 52 = 0 ∨ bits = TextSpec.nanBits
  | .timestamp t => PortableTime t ∧ (∀ p, t.precision = some p → p.includesMinute = false → t.dt.tz = none) ∧ t.frac.sign = false
  | _ => True

/-- Binary can express these values. -/
def InBinary (values : List Val) : Prop := Node.HoldsAll BinaryScalar EncodableText values

/-- Text can express these values: besides, no symbol looks like `$10`, and none of the values looks like a version marker. -/
def InText (values : List Val) : Prop :=
  Node.HoldsAll TextScalar (fun t => TextSpec.IsUnicode t ∧ ¬ TextSpec.IsSidText t) values ∧ ∀ n ∈ values, ¬ VersionLike n

/-- Two lists of objects are equal one by one, in the sense of `ion_equals`, in both modes. -/
def AllEqual (objs objs' : List PyObj) : Prop := List.Forall₂ (fun a b => ∀ instantsOnly, Equivalence.ionEquals instantsOnly a b = true) objs objs'

end Ion.Simple.Spec

namespace Ion.Simple
open Ion Ion.Spec Ion.Simple.Spec Ion.ManagedWriter

/-! ## `Kept` is idempotent -/

theorem mem_firsts {l : List (Option Text)} {a : Option Text} (h : a ∈ firsts l) : a ∈ l := by
  induction l with
  | nil => simp [firsts] at h
  | cons b l ih =>
    simp only [firsts, List.mem_cons, List.mem_filter] at h
    rcases h with rfl | ⟨h, _⟩
    · simp
    · simp [ih h]

theorem firsts_nodup (l : List (Option Text)) : (firsts l).Nodup := by
  induction l with
  | nil => simp [firsts]
  | cons a l ih => simp only [firsts, List.nodup_cons]; exact ⟨by simp, ih.filter _⟩

theorem firsts_replicate {a : Option Text} (l : List (Option Text)) (ha : a ∉ l) : ∀ n, firsts (List.replicate (n + 1) a ++ l) = a :: firsts l := by
  have h0 : (firsts l).filter (· ≠ a) = firsts l := by
    rw [List.filter_eq_self]
    intro x hx
    have : x ≠ a := fun e => ha (e ▸ mem_firsts hx)
    simpa using this
  intro n
  induction n with
  | zero => simp only [Nat.zero_add, List.replicate_one, List.cons_append, List.nil_append, firsts]; rw [h0]
  | succ n ih =>
    rw [List.replicate_succ, List.cons_append, firsts, ih]
    simp only [List.filter_cons, ne_eq, not_true, decide_false, Bool.false_eq_true, if_false]
    exact congrArg _ h0

theorem mem_grouped {xs : List Val} {n : Val} (h : n ∈ grouped xs) : n ∈ xs := by
  simp only [grouped, List.mem_flatMap, List.mem_filter] at h
  obtain ⟨_, _, h, _⟩ := h
  exact h

theorem fields_grouped (names : List (Option Text)) (xs : List Val) (hn : names.Nodup) (hx : ∀ a ∈ names, a ∈ xs.filterMap Node.field) :
    firsts ((names.flatMap fun name => xs.filter fun n => n.field = some name).filterMap Node.field) = names := by
  induction names with
  | nil => rfl
  | cons a names ih =>
    rw [List.flatMap_cons, List.filterMap_append]
    have h1 : (xs.filter fun n => n.field = some a).filterMap Node.field = List.replicate ((xs.filter fun n => n.field = some a).length) a := by
      rw [List.eq_replicate_iff]
      have hall : ∀ n ∈ xs.filter fun n => n.field = some a, n.field = some a := fun n hn => by simpa using (List.mem_filter.1 hn).2
      generalize xs.filter (fun n => n.field = some a) = l at hall ⊢
      clear ih hx hn
      induction l with
      | nil => simp
      | cons n l ih =>
        have h2 := hall n (by simp)
        obtain ⟨h3, h4⟩ := ih fun m hm => hall m (by simp [hm])
        rw [List.filterMap_cons, h2]
        exact ⟨by simp [h3], by simpa using h4⟩
    rw [h1]
    have h2 : (xs.filter fun n => n.field = some a) ≠ [] := by
      obtain ⟨n, hn1, hn2⟩ := List.mem_filterMap.1 (hx a (by simp))
      intro e
      have : n ∈ xs.filter fun n => n.field = some a := List.mem_filter.2 ⟨hn1, by simpa using hn2⟩
      rw [e] at this
      cases this
    obtain ⟨k, hk⟩ : ∃ k, (xs.filter fun n => n.field = some a).length = k + 1 := ⟨_, (Nat.succ_pred_eq_of_pos (List.length_pos_of_ne_nil h2)).symm⟩
    rw [hk, firsts_replicate, ih (List.nodup_cons.1 hn).2 fun b hb => hx b (by simp [hb])]
    intro hm
    obtain ⟨n, hm1, hm2⟩ := List.mem_filterMap.1 hm
    simp only [List.mem_flatMap, List.mem_filter] at hm1
    obtain ⟨b, hb, _, hb2⟩ := hm1
    have : n.field = some b := by simpa using hb2
    rw [this] at hm2
    cases hm2
    exact (List.nodup_cons.1 hn).1 hb

theorem filter_grouped (names : List (Option Text)) (xs : List Val) (hn : names.Nodup) (a : Option Text) (ha : a ∈ names) :
    (names.flatMap fun name => xs.filter fun n => n.field = some name).filter (fun n => n.field = some a) = xs.filter fun n => n.field = some a := by
  induction names with
  | nil => cases ha
  | cons b names ih =>
    rw [List.flatMap_cons, List.filter_append, List.filter_filter]
    by_cases e : a = b
    · subst e
      have h1 : (names.flatMap fun name => xs.filter fun n => n.field = some name).filter (fun n => n.field = some a) = [] := by
        rw [List.filter_eq_nil_iff]
        intro n hm
        simp only [List.mem_flatMap, List.mem_filter] at hm
        obtain ⟨c, hc, _, hc2⟩ := hm
        have : n.field = some c := by simpa using hc2
        intro h
        have h : n.field = some a := by simpa using h
        rw [this] at h
        cases h
        exact (List.nodup_cons.1 hn).1 hc
      rw [h1, List.append_nil]
      simp
    · have h1 : xs.filter (fun n => decide (n.field = some a) && decide (n.field = some b)) = [] := by
        rw [List.filter_eq_nil_iff]
        intro n _ h
        simp only [Bool.and_eq_true, decide_eq_true_eq] at h
        rw [h.1] at h
        exact e (Option.some.inj h.2)
      rw [h1, List.nil_append]
      exact ih (List.nodup_cons.1 hn).2 (by simpa [e] using ha)

/-- Grouping is idempotent. -/
theorem grouped_grouped (xs : List Val) : grouped (grouped xs) = grouped xs := by
  have h1 : firsts ((grouped xs).filterMap Node.field) = firsts (xs.filterMap Node.field) :=
    fields_grouped _ _ (firsts_nodup _) fun a ha => mem_firsts ha
  rw [grouped, h1]
  show _ = (firsts (xs.filterMap Node.field)).flatMap _
  have h2 : ∀ a ∈ firsts (xs.filterMap Node.field), (grouped xs).filter (fun n => n.field = some a) = xs.filter fun n => n.field = some a :=
    fun a ha => filter_grouped _ _ (firsts_nodup _) a ha
  generalize firsts (xs.filterMap Node.field) = l at h2
  induction l with
  | nil => rfl
  | cons a l ih => rw [List.flatMap_cons, List.flatMap_cons, h2 a (by simp), ih fun b hb => h2 b (by simp [hb])]

theorem keptAll_fix {xs : List Val} (h : ∀ x ∈ xs, ∀ z, Kept x z → z = x) : ∀ {zs : List Val}, KeptAll xs zs → zs = xs := by
  induction xs with
  | nil => intro zs hz; cases hz; rfl
  | cons x xs ih =>
    intro zs hz
    cases hz with
    | cons _ y _ ys h1 h2 => rw [h x (by simp) y h1, ih (fun x hx => h x (by simp [hx])) h2]

/-- A value of which only what is kept is left stays as it is. -/
theorem kept_fix {x y : Val} (h : Kept x y) : ∀ z, Kept y z → z = y := by
  refine Kept.rec (motive_1 := fun x y _ => ∀ z, Kept y z → z = y) (motive_2 := fun xs ys _ => ∀ y ∈ ys, ∀ z, Kept y z → z = y) ?_ ?_ ?_ ?_ ?_ h
  · intro f a x z hz; cases hz; rfl
  · intro f a ty xs ys ht _ ih z hz
    cases hz with
    | seq _ _ _ _ zs _ h1 => rw [keptAll_fix ih h1]
    | struct => exact absurd rfl ht
  · intro f a xs ys _ hf ih z hz
    cases hz with
    | seq _ _ _ _ zs ht h1 => exact absurd rfl ht
    | struct _ _ _ zs h1 _ =>
      rw [keptAll_fix (fun x hx => ih x (mem_grouped hx)) h1, grouped_grouped]
  · simp
  · intro x y xs ys _ _ h1 h2 y' hy
    rcases List.mem_cons.1 hy with rfl | hy
    · exact h1
    · exact h2 y' hy

theorem keptAll_mem {xs ys : List Val} (h : KeptAll xs ys) : ∀ y ∈ ys, ∃ x ∈ xs, Kept x y := by
  induction xs generalizing ys with
  | nil => cases h; simp
  | cons x xs ih =>
    cases h with
    | cons _ y _ ys h1 h2 =>
      intro z hz
      rcases List.mem_cons.1 hz with rfl | hz
      · exact ⟨x, by simp, h1⟩
      · obtain ⟨w, hw, hk⟩ := ih h2 z hz
        exact ⟨w, by simp [hw], hk⟩

theorem mean_kept {objs : List PyObj} {values ns : List Val} (hk : KeptAll values ns) (h : Mean objs ns) : Mean objs values := by
  refine ⟨h.1, fun b => ?_⟩
  obtain ⟨ms, h1, h2⟩ := h.2 b
  have : ms = ns := keptAll_fix (fun x hx => by obtain ⟨w, _, hw⟩ := keptAll_mem hk x hx; exact kept_fix hw) h2
  exact ⟨ms, h1, this ▸ hk⟩

/-! ## What is expressible stays so -/

theorem holdsAll_iff {P : Scalar (Option Text) → Prop} {Q : Text → Prop} {ns : List Val} : Node.HoldsAll P Q ns ↔ ∀ n ∈ ns, Node.Holds P Q n := by
  induction ns with
  | nil => simp [Node.HoldsAll]
  | cons n ns ih => simp [Node.HoldsAll, ih]

theorem holds_kept {P : Scalar (Option Text) → Prop} {Q : Text → Prop} {x y : Val} (h : Kept x y) : Node.Holds P Q x → Node.Holds P Q y := by
  refine Kept.rec (motive_1 := fun x y _ => Node.Holds P Q x → Node.Holds P Q y) (motive_2 := fun xs ys _ => Node.HoldsAll P Q xs → Node.HoldsAll P Q ys) ?_ ?_ ?_ ?_ ?_ h
  · intro f a x h; exact h
  · intro f a ty xs ys _ _ ih h
    simp only [Node.Holds] at h ⊢
    exact ⟨h.1, h.2.1, ih h.2.2⟩
  · intro f a xs ys _ _ ih h
    simp only [Node.Holds] at h ⊢
    exact ⟨h.1, h.2.1, holdsAll_iff.2 fun n hn => holdsAll_iff.1 (ih h.2.2) n (mem_grouped hn)⟩
  · intro h; exact h
  · intro x y xs ys _ _ h1 h2 h
    simp only [Node.HoldsAll] at h ⊢
    exact ⟨h1 h.1, h2 h.2⟩

theorem holdsAll_kept {P : Scalar (Option Text) → Prop} {Q : Text → Prop} {xs ys : List Val} (h : KeptAll xs ys) (hx : Node.HoldsAll P Q xs) : Node.HoldsAll P Q ys := by
  rw [holdsAll_iff] at hx ⊢
  intro y hy
  obtain ⟨x, hx1, hx2⟩ := keptAll_mem h y hy
  exact holds_kept hx2 (hx x hx1)

theorem kept_systemLike {x y : Val} (h : Kept x y) : SystemLike y → SystemLike x := by
  cases h with
  | scalar => exact id
  | seq f a ty xs ys ht _ => cases ty <;> first | exact absurd rfl ht | (intro h; cases a with | nil => exact h | cons s a => cases s <;> exact h)
  | struct f a xs ys _ _ => intro h; cases a with | nil => exact h | cons s a => cases s <;> exact h

theorem kept_versionLike {x y : Val} (h : Kept x y) : VersionLike y → VersionLike x := by
  cases h with
  | scalar => exact id
  | seq f a ty xs ys ht _ => exact id
  | struct f a xs ys _ _ => exact id

/-! ## The objects that `load` returns, as arguments of `dump` -/

theorem argText_known {t0 : Table} {a : SymArg} {t : Text} (h : seenText a = some (some t)) : argText t0 a = some (some t) := by
  cases a with
  | text s => exact h
  | tok k =>
    simp only [seenText, Option.some.injEq] at h
    simp [argText, h]

theorem allSome_known {t0 : Table} {Q : Text → Prop} {ann : List SymArg} {a : List (Option Text)} (h : allSome seenText ann = some a)
    (hk : ∀ s ∈ a, ∃ t, s = some t ∧ Q t) : allSome (argText t0) ann = some a ∧ ∀ s ∈ ann, ∃ t, seenText s = some (some t) ∧ Q t := by
  induction ann generalizing a with
  | nil => exact ⟨h, by simp⟩
  | cons s ann ih =>
    simp only [allSome] at h
    cases h1 : seenText s with
    | none => simp [h1] at h
    | some x =>
      cases h2 : allSome seenText ann with
      | none => simp [h1, h2] at h
      | some a' =>
        simp only [h1, h2, Option.bind_some, Option.map_some, Option.some.injEq, Option.bind_eq_bind, Option.pure_def] at h
        subst h
        obtain ⟨t, rfl, ht⟩ := hk x (by simp)
        obtain ⟨i1, i2⟩ := ih h2 fun s hs => hk s (by simp [hs])
        refine ⟨by simp [allSome, argText_known h1, i1], ?_⟩
        intro s' hs'
        rcases List.mem_cons.1 hs' with rfl | hs'
        · exact ⟨t, h1, ht⟩
        · exact i2 s' hs'

/-- A scalar of a loaded object. -/
def KnownScalar (P : Scalar (Option Text) → Prop) (Q : Text → Prop) (p : Kind × PyVal) : Prop :=
  ∃ ty ann x, p.1 = .ion (some ty) ann ∧ nativeScalar ty p.2 ∧ scalarOf seenText ty p.2 = some x ∧ P x ∧ ∀ s, x = .symbol s → ∃ t, s = some t ∧ Q t

/-- What is known of a loaded object whose value is expressible. -/
def Known (b : Bool) (t0 : Table) (P : Scalar (Option Text) → Prop) (Q : Text → Prop) (f : Option (Option Text)) (o : PyObj) (n : Val) : Prop :=
  IsValue b (argText t0) f o n ∧ (∀ a ∈ namesIn o, ∃ t, seenText a = some (some t) ∧ Q t) ∧ ∀ p ∈ scalarsIn o, KnownScalar P Q p

theorem scalarOf_known {t0 : Table} {ty : IonType} {v : PyVal} {x : Scalar (Option Text)} (h : scalarOf seenText ty v = some x) {Q : Text → Prop}
    (hk : ∀ s, x = .symbol s → ∃ t, s = some t ∧ Q t) : scalarOf (argText t0) ty v = some x := by
  unfold scalarOf at h ⊢
  by_cases hs : ty = .symbol
  · rw [if_pos hs] at h ⊢
    cases h1 : asSymbol v with
    | none => simp [h1] at h
    | some a =>
      rw [Option.bind_some]
      rw [h1, Option.bind_some] at h
      cases h2 : seenText a with
      | none => simp [h2] at h
      | some s =>
        rw [h2, Option.map_some, Option.some.injEq] at h
        obtain ⟨t, rfl, _⟩ := hk s h.symm
        rw [argText_known h2, Option.map_some, h]
  · rw [if_neg hs] at h ⊢
    cases ty <;> first | exact absurd rfl hs | exact h | (cases v <;> exact h)

mutual
/-- Loaded objects as arguments of `dump`. -/
theorem known_of_native {b : Bool} {t0 : Table} {P : Scalar (Option Text) → Prop} {Q : Text → Prop} : ∀ (o : PyObj) {f : Option (Option Text)} {n : Val},
    Native o → IsValue b seenText f o n → Node.Holds P Q n → Known b t0 P Q f o n
  | .none, _, _, hn, _, _ => absurd hn id
  | .other _, _, _, hn, _, _ => absurd hn id
  | .null ty ann, f, n, hn, hv, hh => by
    cases hv with
    | null _ ty _ a ha =>
      simp only [Node.Holds] at hh
      obtain ⟨h1, h2⟩ := allSome_known (t0 := t0) ha hh.2.1
      exact ⟨.null _ _ _ _ h1, h2, by simp [scalarsIn]⟩
  | .scalar k v, f, n, hn, hv, hh => by
    cases hv with
    | scalar _ _ _ ty ann a x ht ha hx =>
      simp only [Node.Holds] at hh
      obtain ⟨h1, h2⟩ := allSome_known (t0 := t0) ha hh.2.1
      refine ⟨.scalar _ _ _ _ _ _ _ ht h1 (scalarOf_known hx hh.2.2.2), ?_, ?_⟩
      · cases ht with
        | ion => exact h2
        | plain => exact absurd hn id
      · cases ht with
        | plain => exact absurd hn id
        | ion =>
          intro p hp
          simp only [scalarsIn, List.mem_singleton] at hp
          subst hp
          exact ⟨_, _, x, rfl, hn, hx, hh.2.2.1, hh.2.2.2⟩
  | .seq k elems, f, n, hn, hv, hh => by
    cases hv with
    | seq _ _ _ ty ann a ns ht hc ha hs =>
      simp only [Node.Holds] at hh
      obtain ⟨h1, h2⟩ := allSome_known (t0 := t0) ha hh.2.1
      cases ht with
      | plain => exact absurd hn id
      | ion =>
        obtain ⟨i1, i2, i3⟩ := known_all elems hn hs hh.2.2
        refine ⟨.seq _ _ _ _ _ _ _ (.ion _ _) hc h1 i1, ?_, i3⟩
        intro s hs
        simp only [namesIn, List.mem_append] at hs
        rcases hs with hs | hs
        · exact h2 s hs
        · exact i2 s hs
  | .dict k items, f, n, hn, hv, hh => by
    cases hv with
    | dict _ _ _ ann a ns ht ha hs =>
      simp only [Node.Holds] at hh
      obtain ⟨h1, h2⟩ := allSome_known (t0 := t0) ha hh.2.1
      cases ht with
      | plain => exact absurd hn id
      | ion =>
        obtain ⟨i1, i2, i3⟩ := known_items items hn hs hh.2.2
        refine ⟨.dict _ _ _ _ _ _ (.ion _ _) h1 i1, ?_, i3⟩
        intro s hs
        simp only [namesIn, List.mem_append] at hs
        rcases hs with hs | hs
        · exact h2 s hs
        · exact i2 s hs

theorem known_all {b : Bool} {t0 : Table} {P : Scalar (Option Text) → Prop} {Q : Text → Prop} : ∀ (os : List PyObj) {ns : List Val},
    NativeAll os → AreValues b seenText os ns → Node.HoldsAll P Q ns →
    AreValues b (argText t0) os ns ∧ (∀ a ∈ namesInAll os, ∃ t, seenText a = some (some t) ∧ Q t) ∧ ∀ p ∈ scalarsInAll os, KnownScalar P Q p
  | [], ns, _, hv, _ => by cases hv; exact ⟨.nil, by simp [namesInAll], by simp [scalarsInAll]⟩
  | o :: os, ns, hn, hv, hh => by
    cases hv with
    | cons _ n _ ns h1 h2 =>
      obtain ⟨i1, i2, i3⟩ := known_of_native (t0 := t0) o hn.1 h1 hh.1
      obtain ⟨j1, j2, j3⟩ := known_all (t0 := t0) os hn.2 h2 hh.2
      refine ⟨.cons _ _ _ _ i1 j1, ?_, ?_⟩
      · intro a ha
        simp only [namesInAll, List.mem_append] at ha
        rcases ha with ha | ha
        · exact i2 a ha
        · exact j2 a ha
      · intro a ha
        simp only [scalarsInAll, List.mem_append] at ha
        rcases ha with ha | ha
        · exact i3 a ha
        · exact j3 a ha

theorem known_items {b : Bool} {t0 : Table} {P : Scalar (Option Text) → Prop} {Q : Text → Prop} : ∀ (items : List (Option SymArg × PyObj)) {ns : List Val},
    NativeItems items → AreFields b seenText items ns → Node.HoldsAll P Q ns →
    AreFields b (argText t0) items ns ∧ (∀ a ∈ namesInItems items, ∃ t, seenText a = some (some t) ∧ Q t) ∧ ∀ p ∈ scalarsInItems items, KnownScalar P Q p
  | [], ns, _, hv, _ => by cases hv; exact ⟨.nil, by simp [namesInItems], by simp [scalarsInItems]⟩
  | (key, o) :: items, ns, hn, hv, hh => by
    cases hv with
    | cons _ name _ n _ ns h0 h1 h2 =>
      have hf : ∃ t, name = some t ∧ Q t := by
        have : n.field = some name := by cases h1 <;> rfl
        obtain ⟨hh, _⟩ := hh
        cases n with
        | scalar f a x => simp only [Node.field] at this; simp only [Node.Holds] at hh; exact hh.1 name this
        | cont f a ty xs => simp only [Node.field] at this; simp only [Node.Holds] at hh; exact hh.1 name this
      obtain ⟨t, rfl, hq⟩ := hf
      obtain ⟨i1, i2, i3⟩ := known_of_native (t0 := t0) o hn.2.1 h1 hh.1
      obtain ⟨j1, j2, j3⟩ := known_items (t0 := t0) items hn.2.2 h2 hh.2
      have hkey : IsFieldName (argText t0) o key (some t) ∧ ∀ a ∈ key.toList, ∃ t, seenText a = some (some t) ∧ Q t := by
        cases h0 with
        | text t h => exact ⟨.text t h, by simp [seenText, hq]⟩
        | token k _ h => exact absurd rfl (hn.1 k)
      refine ⟨.cons _ _ _ _ _ _ hkey.1 i1 j1, ?_, ?_⟩
      · intro a ha
        simp only [namesInItems, List.mem_append] at ha
        rcases ha with (ha | ha) | ha
        · exact hkey.2 a ha
        · exact i2 a ha
        · exact j2 a ha
      · intro a ha
        simp only [scalarsInItems, List.mem_append] at ha
        rcases ha with ha | ha
        · exact i3 a ha
        · exact j3 a ha
end

mutual
theorem symbols_split : ∀ (o : PyObj), ∀ a ∈ symbolsIn o, a ∈ namesIn o ∨ ∃ p ∈ scalarsIn o, asSymbol p.2 = some a
  | .none => by simp [symbolsIn]
  | .other _ => by simp [symbolsIn]
  | .null ty ann => by intro a ha; exact .inl ha
  | .scalar k v => by
    intro a ha
    cases k with
    | plain c =>
      simp only [symbolsIn, Option.mem_toList] at ha
      exact .inr ⟨(_, v), List.mem_singleton_self _, ha⟩
    | ion ty ann =>
      simp only [symbolsIn, List.mem_append, Option.mem_toList] at ha
      rcases ha with ha | ha
      · exact .inl ha
      · exact .inr ⟨(_, v), List.mem_singleton_self _, ha⟩
  | .seq k elems => by
    intro a ha
    cases k with
    | plain c => simp only [symbolsIn, namesIn, scalarsIn] at ha ⊢; exact symbols_splitAll elems a ha
    | ion ty ann =>
      simp only [symbolsIn, namesIn, scalarsIn, List.mem_append] at ha ⊢
      rcases ha with ha | ha
      · exact .inl (.inl ha)
      · exact (symbols_splitAll elems a ha).imp .inr id
  | .dict k items => by
    intro a ha
    cases k with
    | plain c => simp only [symbolsIn, namesIn, scalarsIn] at ha ⊢; exact symbols_splitItems items a ha
    | ion ty ann =>
      simp only [symbolsIn, namesIn, scalarsIn, List.mem_append] at ha ⊢
      rcases ha with ha | ha
      · exact .inl (.inl ha)
      · exact (symbols_splitItems items a ha).imp .inr id

theorem symbols_splitAll : ∀ (os : List PyObj), ∀ a ∈ symbolsInAll os, a ∈ namesInAll os ∨ ∃ p ∈ scalarsInAll os, asSymbol p.2 = some a
  | [] => by simp [symbolsInAll]
  | o :: os => by
    intro a ha
    simp only [symbolsInAll, namesInAll, scalarsInAll, List.mem_append] at ha ⊢
    rcases ha with ha | ha
    · rcases symbols_split o a ha with h | ⟨p, h1, h2⟩
      · exact .inl (.inl h)
      · exact .inr ⟨p, .inl h1, h2⟩
    · rcases symbols_splitAll os a ha with h | ⟨p, h1, h2⟩
      · exact .inl (.inr h)
      · exact .inr ⟨p, .inr h1, h2⟩

theorem symbols_splitItems : ∀ (items : List (Option SymArg × PyObj)), ∀ a ∈ symbolsInItems items, a ∈ namesInItems items ∨ ∃ p ∈ scalarsInItems items, asSymbol p.2 = some a
  | [] => by simp [symbolsInItems]
  | (key, o) :: items => by
    intro a ha
    simp only [symbolsInItems, namesInItems, scalarsInItems, List.mem_append] at ha ⊢
    rcases ha with (ha | ha) | ha
    · exact .inl (.inl (.inl ha))
    · rcases symbols_split o a ha with h | ⟨p, h1, h2⟩
      · exact .inl (.inl (.inr h))
      · exact .inr ⟨p, .inl h1, h2⟩
    · rcases symbols_splitItems items a ha with h | ⟨p, h1, h2⟩
      · exact .inl (.inr h)
      · exact .inr ⟨p, .inr h1, h2⟩
end

mutual
theorem values_scalars : ∀ (o : PyObj), ∀ v ∈ valuesIn o, ∃ p ∈ scalarsIn o, p.2 = v
  | .none => by simp [valuesIn]
  | .other _ => by simp [valuesIn]
  | .null ty ann => by simp [valuesIn]
  | .scalar k v => by simp [valuesIn, scalarsIn]
  | .seq k elems => by simp only [valuesIn, scalarsIn]; exact values_scalarsAll elems
  | .dict k items => by simp only [valuesIn, scalarsIn]; exact values_scalarsItems items

theorem values_scalarsAll : ∀ (os : List PyObj), ∀ v ∈ valuesInAll os, ∃ p ∈ scalarsInAll os, p.2 = v
  | [] => by simp [valuesInAll]
  | o :: os => by
    intro v hv
    simp only [valuesInAll, scalarsInAll, List.mem_append] at hv ⊢
    rcases hv with hv | hv
    · obtain ⟨p, h1, h2⟩ := values_scalars o v hv; exact ⟨p, .inl h1, h2⟩
    · obtain ⟨p, h1, h2⟩ := values_scalarsAll os v hv; exact ⟨p, .inr h1, h2⟩

theorem values_scalarsItems : ∀ (items : List (Option SymArg × PyObj)), ∀ v ∈ valuesInItems items, ∃ p ∈ scalarsInItems items, p.2 = v
  | [] => by simp [valuesInItems]
  | (key, o) :: items => by
    intro v hv
    simp only [valuesInItems, scalarsInItems, List.mem_append] at hv ⊢
    rcases hv with hv | hv
    · obtain ⟨p, h1, h2⟩ := values_scalars o v hv; exact ⟨p, .inl h1, h2⟩
    · obtain ⟨p, h1, h2⟩ := values_scalarsItems items v hv; exact ⟨p, .inr h1, h2⟩
end

/-! ## Scalars -/

theorem portable_regular {t : Timestamp} (h : PortableTime t) : Scalars.RegularTime (.ts t) := by
  obtain ⟨⟨p, hp⟩, ho, hf⟩ := h
  refine ⟨⟨_, TextReader.new_of_value hp hf rfl⟩, ho, hf, ?_⟩
  rw [hp.precision]
  cases h : p.includesMinute with
  | true => exact .inl (by simpa using h)
  | false => exact .inr (hp.dated h)

theorem known_expressible {p : Kind × PyVal} (h : KnownScalar BinaryScalar EncodableText p) : Expressible p.2 ∧ ∀ a, asSymbol p.2 = some a → ∃ t, seenText a = some (some t) ∧ EncodableText t := by
  obtain ⟨k, v⟩ := p
  obtain ⟨ty, ann, x, rfl, hn, hx, hp, hs⟩ := h
  simp only at hn hx ⊢
  unfold scalarOf at hx
  by_cases hsym : ty = .symbol
  · subst hsym
    rw [if_pos rfl] at hx
    cases v <;> simp only [asSymbol, Option.bind_none, Option.map_none, reduceCtorEq] at hx
    case str => exact absurd hn id
    case sym k =>
      simp only [seenText, Option.bind_some, Option.map_some, Option.some.injEq] at hx
      obtain ⟨t, ht, hq⟩ := hs _ hx.symm
      exact ⟨⟨trivial, trivial, by simp⟩, fun a ha => by cases ha; exact ⟨t, by simp [seenText, ht], hq⟩⟩
  · rw [if_neg hsym] at hx
    cases ty <;> cases v <;> simp only [denote, Option.some.injEq, reduceCtorEq] at hx
    case symbol.sym => exact absurd rfl hsym
    case decimal.decimal d =>
      subst hx
      exact ⟨⟨trivial, ⟨hp.1, hp.2.1⟩, fun _ e => by cases e; exact hp.2.2⟩, by simp [asSymbol]⟩
    case timestamp.timestamp tv =>
      subst hx
      simp only [nativeScalar] at hn
      simp only [BinaryScalar] at hp
      refine ⟨⟨?_, ?_, by simp⟩, by simp [asSymbol]⟩
      · show Scalars.RegularTime tv
        rw [hn]
        exact portable_regular hp.1
      · show ∀ o, tv.dateTime.tz = some o → ∃ u, tv.dateTime.addMicros (-o) = .ok u
        rw [hn]
        exact hp.2
    case string.str t =>
      subst hx
      exact ⟨⟨trivial, hp, by simp⟩, fun a ha => by cases ha; exact ⟨t, rfl, hp⟩⟩
    all_goals exact ⟨⟨trivial, trivial, by simp⟩, by simp [asSymbol]⟩

theorem safe_known {a : SymArg} {t : Text} (h : seenText a = some (some t)) (hq : TextSpec.IsUnicode t ∧ ¬ TextSpec.IsSidText t) : SafeSymbol a := by
  intro s hs
  cases a with
  | text u => cases h; cases hs; exact hq
  | tok k =>
    simp only [seenText, Option.some.injEq] at h
    simp only [TextSpec.argSym, TextSpec.tokSym, h, Option.some.injEq] at hs
    subst hs
    exact hq

theorem known_safe {b : Bool} {p : Kind × PyVal} (h : KnownScalar TextScalar (fun t => TextSpec.IsUnicode t ∧ ¬ TextSpec.IsSidText t) p) : SafeScalar b p.1 p.2 := by
  obtain ⟨k, v⟩ := p
  obtain ⟨ty, ann, x, rfl, hn, hx, hp, hs⟩ := h
  simp only at hn hx ⊢
  unfold scalarOf at hx
  by_cases hsym : ty = .symbol
  · subst hsym
    rw [if_pos rfl] at hx
    cases v <;> simp only [asSymbol, Option.bind_none, Option.map_none, reduceCtorEq] at hx
    case str => exact absurd hn id
    case sym k =>
      simp only [seenText, Option.bind_some, Option.map_some, Option.some.injEq] at hx
      obtain ⟨t, ht, hq⟩ := hs _ hx.symm
      exact ⟨trivial, fun _ a ha => by cases ha; exact safe_known (t := t) (by simp [seenText, ht]) hq⟩
  · rw [if_neg hsym] at hx
    refine ⟨?_, fun ⟨ann', ht⟩ => by cases ht; exact absurd rfl hsym⟩
    cases ty <;> cases v <;> simp only [denote, Option.some.injEq, reduceCtorEq] at hx
    case symbol.sym => exact absurd rfl hsym
    case float.float bits => subst hx; exact hp
    case timestamp.timestamp tv =>
      subst hx
      simp only [nativeScalar] at hn
      simp only [TextScalar] at hp
      show TextSpec.TextTime tv
      rw [hn]
      obtain ⟨⟨p, hpt⟩, _⟩ := hp.1
      exact ⟨portable_regular hp.1, ⟨p, hpt.precision, hp.2.1 p hpt.precision⟩, hp.2.2⟩
    case string.str t => subst hx; exact hp
    all_goals trivial

theorem areValues_length {b : Bool} {sym : SymArg → Option (Option Text)} {os : List PyObj} {ns : List Val} (h : AreValues b sym os ns) : ns.length = os.length := by
  induction os generalizing ns with
  | nil => cases h; rfl
  | cons o os ih => cases h with | cons _ n _ ns _ h => simp [ih h]

/-! ## The theorems -/

/-- Loaded objects are written again in binary, and read as the same values. -/
theorem dump_mean_binary {objs : List PyObj} {values : List Val} (hm : Mean objs values) (hb : InBinary values) (hu : ∀ n ∈ values, ¬ SystemLike n)
    (tupleAsSexp : Bool) (k : Kind) :
    ∃ doc, dumps none true tupleAsSexp (.seq k objs) = .ok doc ∧ ∃ objs', Mean objs' values ∧ objs'.length = objs.length ∧
      loadsBinary [] false doc = some (.ok objs') ∧ ∀ cs, RawReader.Chunks cs doc → loadBinary [] false cs = some (.ok objs') := by
  obtain ⟨ns, h1, h2⟩ := hm.2 tupleAsSexp
  have hns : ∀ n ∈ ns, ¬ SystemLike n := fun n hn hc => by
    obtain ⟨x, hx, hk⟩ := keptAll_mem h2 n hn
    exact hu x hx (kept_systemLike hk hc)
  obtain ⟨T0, h0⟩ : ∃ T0, SymbolTable.new .local [] (imports := none) = .ok T0 := ⟨_, rfl⟩
  obtain ⟨i1, i2, i3⟩ := known_all (t0 := T0.contents) objs ((nativeAll_iff _).2 hm.1) h1 (holdsAll_kept h2 hb)
  have good : ∀ {a : SymArg}, (∃ t, seenText a = some (some t) ∧ EncodableText t) → GoodSym T0.symbols.length a := by
    rintro a ⟨t, ht, hq⟩
    cases a with
    | text u => cases ht; exact hq
    | tok k =>
      simp only [seenText, Option.some.injEq] at ht
      simp only [GoodSym, ht]
      exact hq
  obtain ⟨doc, d1, objs', d2, d3, d4, d5, _⟩ := C12_dump_load_partial none [] (by simp) [] rfl (by simp) T0 h0 true tupleAsSexp (.seq k objs) ns i1
    (fun a ha => by
      rcases symbols_splitAll objs a ha with h | ⟨p, hp1, hp2⟩
      · exact good (i2 a h)
      · exact good ((known_expressible (i3 p hp1)).2 a hp2))
    (fun v hv => by
      obtain ⟨p, hp, rfl⟩ := values_scalarsAll objs v hv
      exact (known_expressible (i3 p hp)).1)
    hns
  have hlen := areValues_length h1
  exact ⟨doc, d1, objs', mean_kept h2 d2, by rw [d3, hlen], d5, fun cs hcs => (d4 cs hcs).1⟩

/-- Loaded objects are written again in text, and read as the same values. -/
theorem dump_mean_text {objs : List PyObj} {values : List Val} (hm : Mean objs values) (ht : InText values) (hu : ∀ n ∈ values, ¬ SystemLike n)
    (F : FloatText) (hF : TextSpec.Faithful F) (indent : Option Text) (hi : ∀ t, indent = some t → TextSpec.IsBlank t) (omitVersionMarker tupleAsSexp : Bool) (k : Kind)
    (catalog : Catalog) (hcat : Catalog.Registered catalog) :
    ∃ t, dumpsText F indent omitVersionMarker true tupleAsSexp (.seq k objs) = .ok t ∧ ∃ objs', Mean objs' values ∧ objs'.length = objs.length ∧ LoadsAs F catalog t objs' := by
  obtain ⟨ns, h1, h2⟩ := hm.2 tupleAsSexp
  obtain ⟨i1, i2, i3⟩ := known_all (t0 := systemTable) objs ((nativeAll_iff _).2 hm.1) h1 (holdsAll_kept h2 ht.1)
  obtain ⟨t, _, d1, _, objs', d2, d3, d4⟩ := C49_dump_load_text_partial F hF indent hi omitVersionMarker true tupleAsSexp (.seq k objs) ns i1
    (fun a ha => by obtain ⟨t, h3, h4⟩ := i2 a ha; exact safe_known h3 h4) (fun p hp => known_safe (i3 p hp))
    (fun n hn => by
      obtain ⟨x, hx, hk⟩ := keptAll_mem h2 n hn
      exact ⟨fun hc => hu x hx (kept_systemLike hk hc), fun hc => ht.2 x hx (kept_versionLike hk hc)⟩) catalog hcat
  have hlen := areValues_length h1
  exact ⟨t, d1, objs', mean_kept h2 d2, by rw [d3, hlen], d4⟩

/-! ## Equality with what was loaded before -/

theorem keptAll_fun {xs : List Val} (h : ∀ x ∈ xs, ∀ y z, Kept x y → Kept x z → y = z) : ∀ {ys zs : List Val}, KeptAll xs ys → KeptAll xs zs → ys = zs := by
  induction xs with
  | nil => intro ys zs hy hz; cases hy; cases hz; rfl
  | cons x xs ih =>
    intro ys zs hy hz
    cases hy with
    | cons _ y _ ys h1 h2 =>
      cases hz with
      | cons _ z _ zs h3 h4 => rw [h x (by simp) y z h1 h3, ih (fun x hx => h x (by simp [hx])) h2 h4]

/-- What is kept of a value is determined by it. -/
theorem kept_fun (x : Val) : ∀ y z, Kept x y → Kept x z → y = z := by
  refine Spec.Node.rec (motive_1 := fun x => ∀ y z, Kept x y → Kept x z → y = z) (motive_2 := fun xs => ∀ x ∈ xs, ∀ y z, Kept x y → Kept x z → y = z) ?_ ?_ ?_ ?_ x
  · intro f a x y z h1 h2; cases h1; cases h2; rfl
  · intro f a ty xs ih y z h1 h2
    cases h1 with
    | seq _ _ _ _ ys ht h1 =>
      cases h2 with
      | seq _ _ _ _ zs _ h2 => rw [keptAll_fun ih h1 h2]
      | struct => exact absurd rfl ht
    | struct _ _ _ ys h1 _ =>
      cases h2 with
      | seq _ _ _ _ zs ht h2 => exact absurd rfl ht
      | struct _ _ _ zs h2 _ => rw [keptAll_fun ih h1 h2]
  · simp
  · intro x xs h1 h2 y hy
    rcases List.mem_cons.1 hy with rfl | hy
    · exact h1
    · exact h2 y hy

theorem same_refl (x : Val) : Same x x := by
  refine Spec.Node.rec (motive_1 := fun x => Same x x) (motive_2 := fun xs => SameAll xs xs) ?_ ?_ ?_ ?_ x
  · intro f a x; exact .scalar _ _ _
  · intro f a ty xs ih; exact .seq _ _ _ _ _ ih
  · exact .nil
  · intro x xs h1 h2; exact .cons _ _ _ _ h1 h2

theorem proper_known {P : Scalar (Option Text) → Prop} {Q : Text → Prop} (hP : ∀ t, P (.timestamp t) → ∃ p, IsTimeValue t p) {p : Kind × PyVal} (h : KnownScalar P Q p) :
    ∃ ty ann, p.1 = .ion (some ty) ann ∧ Equivalence.Spec.ProperValue (some ty) p.2 := by
  obtain ⟨k, v⟩ := p
  obtain ⟨ty, ann, x, rfl, hn, hx, hp, hs⟩ := h
  refine ⟨ty, ann, rfl, ?_⟩
  simp only at hn hx ⊢
  unfold scalarOf at hx
  by_cases hsym : ty = .symbol
  · subst hsym
    rw [if_pos rfl] at hx
    cases v <;> simp only [asSymbol, Option.bind_none, Option.map_none, reduceCtorEq] at hx
    case str => exact absurd hn id
    case sym k =>
      simp only [seenText, Option.bind_some, Option.map_some, Option.some.injEq] at hx
      obtain ⟨t, ht, hq⟩ := hs _ hx.symm
      exact .inl (by simp [ht])
  · rw [if_neg hsym] at hx
    cases ty <;> cases v <;> simp only [denote, Option.some.injEq, reduceCtorEq] at hx
    case symbol.sym => exact absurd rfl hsym
    case bool.int i => exact fun _ => hn
    case int.int i => exact fun h => by cases h
    case timestamp.timestamp tv =>
      subst hx
      simp only [nativeScalar] at hn
      rw [hn]
      exact hP _ hp
    all_goals trivial

theorem known_seen {Q : Text → Prop} {a : SymArg} (h : ∃ t, seenText a = some (some t) ∧ Q t) : Equivalence.Spec.Known a := by
  obtain ⟨t, h, _⟩ := h
  cases a with
  | text u => trivial
  | tok k => simp only [seenText, Option.some.injEq] at h; exact .inl (by simp [h])

mutual
/-- Loaded objects are such that C32 applies to them. -/
theorem proper_of_native : ∀ (o : PyObj), Native o → (∀ a ∈ namesIn o, Equivalence.Spec.Known a) →
    (∀ p ∈ scalarsIn o, ∃ ty ann, p.1 = .ion (some ty) ann ∧ Equivalence.Spec.ProperValue (some ty) p.2) → Equivalence.Spec.Proper o
  | .none, hn, _, _ => absurd hn id
  | .other _, hn, _, _ => absurd hn id
  | .null ty ann, _, hs, _ => hs
  | .scalar (.plain _) v, hn, _, _ => absurd hn id
  | .scalar (.ion ty ann) v, hn, hs, hv => by
    obtain ⟨ty', ann', he, hp⟩ := hv _ (List.mem_singleton_self _)
    cases he
    exact ⟨hs, hp⟩
  | .seq (.plain _) elems, hn, _, _ => absurd hn id
  | .seq (.ion ty ann) elems, hn, hs, hv => by
    simp only [namesIn, List.mem_append] at hs
    exact ⟨fun a ha => hs a (.inl ha), proper_all elems hn (fun a ha => hs a (.inr ha)) hv⟩
  | .dict (.plain _) items, hn, _, _ => absurd hn id
  | .dict (.ion ty ann) items, hn, hs, hv => by
    simp only [namesIn, List.mem_append] at hs
    exact ⟨fun a ha => hs a (.inl ha), proper_items items hn (fun a ha => hs a (.inr ha)) hv⟩

theorem proper_all : ∀ (os : List PyObj), NativeAll os → (∀ a ∈ namesInAll os, Equivalence.Spec.Known a) →
    (∀ p ∈ scalarsInAll os, ∃ ty ann, p.1 = .ion (some ty) ann ∧ Equivalence.Spec.ProperValue (some ty) p.2) → Equivalence.Spec.AllProper os
  | [], _, _, _ => trivial
  | o :: os, hn, hs, hv => by
    simp only [namesInAll, scalarsInAll, List.mem_append] at hs hv
    exact ⟨proper_of_native o hn.1 (fun a ha => hs a (.inl ha)) (fun p hp => hv p (.inl hp)), proper_all os hn.2 (fun a ha => hs a (.inr ha)) (fun p hp => hv p (.inr hp))⟩

theorem proper_items : ∀ (items : List (Option SymArg × PyObj)), NativeItems items → (∀ a ∈ namesInItems items, Equivalence.Spec.Known a) →
    (∀ p ∈ scalarsInItems items, ∃ ty ann, p.1 = .ion (some ty) ann ∧ Equivalence.Spec.ProperValue (some ty) p.2) → Equivalence.Spec.AllProperItems items
  | [], _, _, _ => trivial
  | (key, o) :: items, hn, hs, hv => by
    simp only [namesInItems, scalarsInItems, List.mem_append] at hs hv
    refine ⟨?_, proper_of_native o hn.2.1 (fun a ha => hs a (.inl (.inr ha))) (fun p hp => hv p (.inl hp)), proper_items items hn.2.2 (fun a ha => hs a (.inr ha)) (fun p hp => hv p (.inr hp))⟩
    cases key with
    | none => trivial
    | some a => cases a with
      | text t => trivial
      | tok k => exact absurd rfl (hn.1 k)
end

theorem proper_mem {os : List PyObj} (h : Equivalence.Spec.AllProper os) : ∀ o ∈ os, Equivalence.Spec.Proper o := by
  induction os with
  | nil => simp
  | cons o os ih =>
    intro x hx
    rcases List.mem_cons.1 hx with rfl | hx
    · exact h.1
    · exact ih h.2 x hx

/-- Objects that mean the same values are equal. -/
theorem mean_equal {P : Scalar (Option Text) → Prop} {Q : Text → Prop} (hP : ∀ t, P (.timestamp t) → ∃ p, IsTimeValue t p) {objs objs' : List PyObj} {values : List Val}
    (hh : Node.HoldsAll P Q values) (h : Mean objs values) (h' : Mean objs' values) : AllEqual objs objs' := by
  obtain ⟨ns, h1, h2⟩ := h.2 false
  obtain ⟨ns', h1', h2'⟩ := h'.2 false
  obtain rfl : ns' = ns := keptAll_fun (fun x _ => kept_fun x) h2' h2
  have proper : ∀ {os : List PyObj}, (∀ o ∈ os, Native o) → AreValues false seenText os ns' → Equivalence.Spec.AllProper os := by
    intro os ho hv
    obtain ⟨_, i2, i3⟩ := known_all (t0 := systemTable) os ((nativeAll_iff _).2 ho) hv (holdsAll_kept h2 hh)
    exact proper_all os ((nativeAll_iff _).2 ho) (fun a ha => known_seen (i2 a ha)) fun p hp => proper_known hP (i3 p hp)
  have p1 := proper h.1 h1
  have p2 := proper h'.1 h1'
  clear h h' hh h2 h2' proper
  induction objs generalizing objs' ns' with
  | nil => cases h1; cases h1'; exact .nil
  | cons o os ih =>
    cases h1 with
    | cons _ n _ ns v1 v2 =>
      cases h1' with
      | cons o' _ os' _ w1 w2 =>
        exact .cons (fun m => Equivalence.C32_same_is_equal m false o o' n n p1.1 p2.1 v1 w1 (same_refl n)) (ih _ w2 v2 p1.2 p2.2)

theorem binary_time (t : Timestamp) (h : BinaryScalar (.timestamp t)) : ∃ p, IsTimeValue t p := h.1.1
theorem text_time (t : Timestamp) (h : TextScalar (.timestamp t)) : ∃ p, IsTimeValue t p := h.1.1

/-! ## Values of the user -/

theorem denotes_user {catalog : Catalog} {t : Table} {items : List (Option (Spec.Node TextSpec.TSym))} {values : List Val}
    (h : TextSpec.Denotes catalog t items values) : ∀ v ∈ values, ¬ SystemLike v := by
  induction h with
  | nil => simp
  | marker _ _ _ _ ih => exact ih
  | value _ _ _ _ _ _ hs _ ih =>
    intro v hv
    rcases List.mem_cons.1 hv with rfl | hv
    · exact hs
    · exact ih v hv
  | nop _ _ _ _ _ _ _ ih => exact ih
  | table _ _ _ _ _ _ _ _ _ _ _ ih => exact ih

theorem user_not_system {catalog : Catalog} {t : Table} {n : Spec.Node Nat} {v : Val} (h : systemValue catalog t n = .ok none)
    (hm : n.map t.text = v.map .ok) : ¬ SystemLike v := by
  intro hs
  cases v with
  | scalar f a x =>
    cases n with
    | cont => simp [Spec.Node.map] at hm
    | scalar f' a' x' =>
      simp only [Spec.Node.map, Spec.Node.scalar.injEq] at hm
      obtain ⟨_, h2, h3⟩ := hm
      cases a with
      | cons => simp [SystemLike] at hs
      | nil =>
        simp only [List.map_nil, List.map_eq_nil_iff] at h2
        subst h2
        cases x <;> simp only [SystemLike] at hs
        case symbol s =>
          cases s with
          | none => exact hs
          | some s =>
            simp only at hs
            subst hs
            cases x' <;> simp only [Scalar.map, reduceCtorEq, Scalar.symbol.injEq] at h3
            case symbol m =>
              simp [systemValue, h3, bind, Except.bind, pure, Except.pure] at h
  | cont f a ty xs =>
    cases n with
    | scalar => simp [Spec.Node.map] at hm
    | cont f' a' ty' xs' =>
      simp only [Spec.Node.map, Spec.Node.cont.injEq] at hm
      obtain ⟨_, h2, rfl, _⟩ := hm
      cases a with
      | nil => cases ty' <;> simp [SystemLike] at hs
      | cons s a =>
        cases s with
        | none => cases ty' <;> simp [SystemLike] at hs
        | some s =>
          cases ty' <;> simp only [SystemLike] at hs
          subst hs
          cases a' with
          | nil => simp at h2
          | cons m a' =>
            simp only [List.map_cons, List.cons.injEq] at h2
            simp only [systemValue, h2.1, bind, Except.bind, if_true, pure, Except.pure] at h
            split at h <;> cases h

theorem users_not_system {catalog : Catalog} : ∀ (ts : List Top) {t : Table} {vs : List (Table × Spec.Node Nat)}, userValues catalog t ts = .ok vs →
    ∀ {values : List Val}, List.Forall₂ (fun v m => v.2.map v.1.text = m.map .ok) vs values → ∀ v ∈ values, ¬ SystemLike v := by
  intro ts
  induction ts with
  | nil => intro t vs h values hv; cases h; cases hv; simp
  | cons a ts ih =>
    intro t vs h values hv
    cases a with
    | marker => exact ih h hv
    | value n =>
      simp only [userValues, bind, Except.bind, pure, Except.pure] at h
      cases hs : systemValue catalog t n with
      | error e => simp [hs] at h
      | ok r =>
        cases r with
        | some t' => simp only [hs] at h; exact ih h hv
        | none =>
          simp only [hs] at h
          cases hr : userValues catalog t ts with
          | error e => simp [hr] at h
          | ok rest =>
            simp only [hr, Except.ok.injEq] at h
            subst h
            cases hv with
            | cons h1 h2 =>
              intro v hv
              rcases List.mem_cons.1 hv with rfl | hv
              · exact user_not_system hs h1
              · exact ih hr h2 v hv

/-! ## C59 -/

/-- **C59** (text to binary).  Of every document of the text grammar whose values binary can express: the list that `load` returns is
written by `dump` as a stream of binary Ion without exception, and `load` of that output, cut in any way, returns objects that mean
the values of the text, and that `ion_equals` takes for those loaded from the text. -/
theorem C59_text_to_binary_partial (F : FloatText) (ws bs : List Nat) (items : List (Option (Spec.Node TextSpec.TSym))) (hws : TextSpec.IsTrivia ws)
    (hdoc : TextSpec.IsDoc F bs items) (hc : ∀ c ∈ ws ++ bs, c ≤ 0x10FFFF) (catalog : Catalog) (hcat : Catalog.Registered catalog) (values : List Val)
    (hv : TextSpec.Denotes catalog systemTable items values) (hb : InBinary values) (tupleAsSexp : Bool) :
    ∃ objs, LoadsAs F catalog (ws ++ bs) objs ∧ ∃ doc, dumps none true tupleAsSexp (.seq (.plain .list) objs) = .ok doc ∧
      ∃ objs', Mean objs' values ∧ AllEqual objs objs' ∧ loadsBinary [] false doc = some (.ok objs') ∧
        ∀ cs, RawReader.Chunks cs doc → loadBinary [] false cs = some (.ok objs') := by
  obtain ⟨objs, h1, _, h2⟩ := C48_load_text_document_partial F ws bs items hws hdoc hc catalog hcat values hv
  obtain ⟨doc, d1, objs', d2, _, d3, d4⟩ := dump_mean_binary h1 hb (denotes_user hv) tupleAsSexp (.plain .list)
  exact ⟨objs, h2, doc, d1, objs', d2, mean_equal binary_time hb h1 d2, d3, d4⟩

/-- **C59** (text to text: formatting).  The same for `dump` to text, with any indent. -/
theorem C59_text_to_text_partial (F : FloatText) (hF : TextSpec.Faithful F) (ws bs : List Nat) (items : List (Option (Spec.Node TextSpec.TSym))) (hws : TextSpec.IsTrivia ws)
    (hdoc : TextSpec.IsDoc F bs items) (hc : ∀ c ∈ ws ++ bs, c ≤ 0x10FFFF) (catalog : Catalog) (hcat : Catalog.Registered catalog) (values : List Val)
    (hv : TextSpec.Denotes catalog systemTable items values) (ht : InText values) (indent : Option Text) (hi : ∀ t, indent = some t → TextSpec.IsBlank t)
    (omitVersionMarker tupleAsSexp : Bool) :
    ∃ objs, LoadsAs F catalog (ws ++ bs) objs ∧ ∃ t, dumpsText F indent omitVersionMarker true tupleAsSexp (.seq (.plain .list) objs) = .ok t ∧
      ∃ objs', Mean objs' values ∧ AllEqual objs objs' ∧ LoadsAs F [] t objs' := by
  obtain ⟨objs, h1, _, h2⟩ := C48_load_text_document_partial F ws bs items hws hdoc hc catalog hcat values hv
  obtain ⟨t, d1, objs', d2, _, d3⟩ := dump_mean_text h1 ht (denotes_user hv) F hF indent hi omitVersionMarker tupleAsSexp (.plain .list) [] ManagedReader.registered_empty
  exact ⟨objs, h2, t, d1, objs', d2, mean_equal text_time ht.1 h1 d2, d3⟩

/-- **C59** (binary to text).  Of every well-formed binary document whose symbols are defined and whose values text can express: the
list that `load` returns is written by `dump` as text, with any indent, and `load` of that text returns objects that mean the values
of the binary document, and that `ion_equals` takes for those loaded from it. -/
theorem C59_binary_to_text_partial (F : FloatText) (hF : TextSpec.Faithful F) (doc : Bytes) (segs : List (List (Spec.Node Nat))) (hs : IsStream doc segs)
    (hr : ∀ items ∈ segs, Spec.AllScalars RawReader.Readable items) (catalog : Catalog)
    (hcat : Catalog.Registered catalog) (hp : Plain catalog systemTable (tops segs)) (vs : List (Table × Spec.Node Nat))
    (hu : userValues catalog systemTable (tops segs) = .ok vs) (values : List Val)
    (hv : List.Forall₂ (fun v m => v.2.map v.1.text = m.map .ok) vs values) (ht : InText values) (indent : Option Text)
    (hi : ∀ t, indent = some t → TextSpec.IsBlank t) (omitVersionMarker tupleAsSexp : Bool) :
    ∃ objs, (∀ cs, RawReader.Chunks cs doc → loadBinary catalog false cs = some (.ok objs)) ∧
      ∃ t, dumpsText F indent omitVersionMarker true tupleAsSexp (.seq (.plain .list) objs) = .ok t ∧
      ∃ objs', Mean objs' values ∧ AllEqual objs objs' ∧ LoadsAs F [] t objs' := by
  obtain ⟨objs, h1, _, h2⟩ := C13_load_document doc segs hs hr catalog hcat hp vs hu values hv
  obtain ⟨t, d1, objs', d2, _, d3⟩ := dump_mean_text h1 ht (users_not_system _ hu hv) F hF indent hi omitVersionMarker tupleAsSexp (.plain .list) [] ManagedReader.registered_empty
  exact ⟨objs, fun cs hcs => (h2 cs hcs).1, t, d1, objs', d2, mean_equal text_time ht.1 h1 d2, d3⟩

/-- **C59** (binary to binary: the symbol tables and imports of the source are replaced).  The output depends on no catalog. -/
theorem C59_binary_to_binary_partial (doc : Bytes) (segs : List (List (Spec.Node Nat))) (hs : IsStream doc segs)
    (hr : ∀ items ∈ segs, Spec.AllScalars RawReader.Readable items) (catalog : Catalog)
    (hcat : Catalog.Registered catalog) (hp : Plain catalog systemTable (tops segs)) (vs : List (Table × Spec.Node Nat))
    (hu : userValues catalog systemTable (tops segs) = .ok vs) (values : List Val)
    (hv : List.Forall₂ (fun v m => v.2.map v.1.text = m.map .ok) vs values) (hb : InBinary values) (tupleAsSexp : Bool) :
    ∃ objs, (∀ cs, RawReader.Chunks cs doc → loadBinary catalog false cs = some (.ok objs)) ∧
      ∃ doc', dumps none true tupleAsSexp (.seq (.plain .list) objs) = .ok doc' ∧
      ∃ objs', Mean objs' values ∧ AllEqual objs objs' ∧ loadsBinary [] false doc' = some (.ok objs') ∧
        ∀ cs, RawReader.Chunks cs doc' → loadBinary [] false cs = some (.ok objs') := by
  obtain ⟨objs, h1, _, h2⟩ := C13_load_document doc segs hs hr catalog hcat hp vs hu values hv
  obtain ⟨doc', d1, objs', d2, _, d3, d4⟩ := dump_mean_binary h1 hb (users_not_system _ hu hv) tupleAsSexp (.plain .list)
  exact ⟨objs, fun cs hcs => (h2 cs hcs).1, doc', d1, objs', d2, mean_equal binary_time hb h1 d2, d3, d4⟩

/-! ### The hypotheses can be met -/

/-- Of the sample document of C48 (a local symbol table, then a symbol by its ID) and of the sample document of C20: one symbol. -/
example : InBinary [.scalar none [] (.symbol (some [98]))] ∧ InText [.scalar none [] (.symbol (some [98]))] := by
  have hu : TextSpec.IsUnicode [98] := by
    intro c hc
    simp only [List.mem_singleton] at hc
    subst hc
    simp [TextSpec.IsScalarValue]
  have hs : ¬ TextSpec.IsSidText [98] := by
    rintro ⟨ds, h, _⟩
    cases h
  refine ⟨⟨⟨by simp, by simp, trivial, ?_⟩, trivial⟩, ⟨⟨by simp, by simp, trivial, ?_⟩, trivial⟩, ?_⟩
  · rintro s h; cases h; exact ⟨_, rfl, by simp [EncodableText]⟩
  · rintro s h; cases h; exact ⟨_, rfl, hu, hs⟩
  · intro n hn
    simp only [List.mem_singleton] at hn
    subst hn
    rintro ⟨a, b, h, _⟩
    cases h

/-- A struct with an annotation, a repeated field, a decimal, a timestamp with an offset and a NaN. -/
example : InBinary [.cont none [some [97]] .struct [.scalar (some (some [98])) [] (.decimal ⟨true, 0, 5⟩), .scalar (some (some [98])) [] (.float 0x7FF8000000000000),
    .scalar (some (some [])) [] (.timestamp ⟨⟨2000, 1, 1, 0, 0, 0, 123450, some 3600000000⟩, some .second, 6, ⟨false, 123450, -6⟩⟩)]] := by
  have h : PortableTime ⟨⟨2000, 1, 1, 0, 0, 0, 123450, some 3600000000⟩, some .second, 6, ⟨false, 123450, -6⟩⟩ := by
    refine ⟨⟨.second, ⟨rfl, by decide, rfl, by decide, by decide, by decide, by decide, by decide, by simp⟩⟩, ?_, by decide⟩
    intro o ho
    cases ho
    decide
  refine ⟨⟨by simp, ?_, ⟨?_, by simp, ?_, by simp⟩, ⟨?_, by simp, trivial, by simp⟩, ⟨?_, by simp, ⟨h, ?_⟩, by simp⟩, trivial⟩, trivial⟩
  · intro s hs
    simp only [List.mem_singleton] at hs
    subst hs
    exact ⟨_, rfl, by simp [EncodableText]⟩
  · rintro s h; cases h; exact ⟨_, rfl, by simp [EncodableText]⟩
  · exact ⟨by decide +kernel, by decide +kernel, .inl rfl⟩
  · rintro s h; cases h; exact ⟨_, rfl, by simp [EncodableText]⟩
  · rintro s h; cases h; exact ⟨_, rfl, by simp [EncodableText]⟩
  · intro o ho
    cases ho
    exact ⟨_, rfl⟩

/-- **C59** (negative).  A symbol with unknown text (a symbol of a shared table that the catalog did not have) is loaded, but cannot
be written again. -/
theorem C59_unknown_symbol_not_written : (dumps none false false (.scalar (.ion (some .symbol) []) (.sym ⟨none, some 10, none⟩))).toOption = none := by
  decide +kernel

end Ion.Simple

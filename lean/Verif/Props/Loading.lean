import Verif.Props.Simple
import Verif.Props.Multimap
set_option linter.unusedSimpArgs false
/-!
# Properties C12, C13, C45: `load`, and `dump` followed by `load`
-/
namespace Ion.Simple
open Ion Ion.Spec Ion.Simple.Spec Ion.ManagedWriter
open Ion.ManagedReader (Event pulls)

/-! ## The object of a scalar event -/

theorem rebuild_time {t : Timestamp} {p : Precision} (h : IsTimeValue t p) (hf : Scalars.FracOk t.frac) : rebuildTime (.ts t) = .ok t := by
  have hn := Scalars.normalise_of_value h hf
  have hv := h.valid
  obtain ⟨dt, prec, fp, fr⟩ := t
  exact Timestamp.new_frac hn hv

/-- The object that `load` makes of a scalar. -/
theorem scalar_object {t : Table} {d : Nat} {f : Option Nat} {a : List Nat} {x : Scalar Nat} {a' : List (Option Text)} {y : Scalar (Option Text)}
    (hx : ∀ t, x = .timestamp t → ∃ p, IsTimeValue t p) (hr : RawReader.Readable x) (ha : a.map t.text = a'.map .ok)
    (hy : x.map t.text = y.map .ok) :
    ∃ o, scalarObj ((Spec.Node.scalar f a x).seen t d) = .ok o ∧ Native o ∧ ∀ b f', IsValue b seenText f' o (.scalar f' a' y) := by
  obtain ⟨ks, hks1, hks2⟩ := findAll_of_text ha
  obtain ⟨v, hv1, hv2⟩ := seen_scalar hx hy
  simp only [scalarObj, Spec.Node.seen, hv1, hks1]
  cases v with
  | none =>
    simp only [denote, Option.some.injEq] at hv2
    subst hv2
    exact ⟨_, rfl, trivial, fun b f' => .null f' _ _ _ hks2⟩
  | some v =>
    have key : ∃ w, construct x.ty v = .ok w ∧ scalarOf seenText x.ty w = some y ∧ ¬ (x.ty = .null ∨ x.ty.isContainer = true) ∧ nativeScalar x.ty w := by
      cases x <;> simp only [Spec.Table.value, pyValue, pure, Except.pure, Except.ok.injEq, reduceCtorEq, Option.some.injEq] at hv1
      case bool b =>
        subst hv1
        refine ⟨.int (if b then 1 else 0), rfl, ?_, by simp [Scalar.ty, IonType.isContainer], by cases b <;> simp [nativeScalar, Scalar.ty]⟩
        simp only [Scalar.ty, denote, Option.some.injEq] at hv2
        subst hv2
        cases b <;> simp [scalarOf, Scalar.ty, denote]
      case symbol n =>
        cases hk : t.find n with
        | error err => rw [hk] at hv1; cases hv1
        | ok k =>
          rw [hk] at hv1
          cases hv1
          refine ⟨.sym k, ?_, ?_, by simp [Scalar.ty, IonType.isContainer], by simp [nativeScalar, Scalar.ty]⟩
          · have : k.sid.isNone = false := by
              unfold Table.find at hk
              split at hk
              · cases hk; rfl
              · split at hk
                · cases hk; rfl
                · cases hk
            simp [construct, Scalar.ty, SymbolToken.new, this]
          · simp only [Scalar.ty, denote, Option.map_some, Option.some.injEq] at hv2
            subst hv2
            simp [scalarOf, Scalar.ty, asSymbol, seenText]
      case timestamp tv =>
        subst hv1
        obtain ⟨p, hp⟩ := hx tv rfl
        refine ⟨.timestamp (.ts tv), by simp [construct, Scalar.ty, rebuild_time hp hr], ?_, by simp [Scalar.ty, IonType.isContainer], by simp [nativeScalar, Scalar.ty, timeValue_normal hp]⟩
        simpa [scalarOf, Scalar.ty, denote] using hv2
      all_goals
        subst hv1
        refine ⟨_, rfl, ?_, by simp [Scalar.ty, IonType.isContainer], by simp [nativeScalar, Scalar.ty]⟩
        simpa [scalarOf, Scalar.ty, denote] using hv2
    obtain ⟨w, hw1, hw2, hw3, hw4⟩ := key
    simp only [hw3, if_false, hw1]
    exact ⟨_, rfl, hw4, fun b f' => .scalar f' _ _ _ _ _ _ (.ion _ _) hks2 hw2⟩

/-! ## The object of a container -/

/-- A value is added to a container. -/
def Out.push (out : Out) (p : Option Text × PyObj) : Out :=
  match out with
  | .list l => .list (l ++ [p.2])
  | .dict m => .dict (Multimap.addItem m p.1 p.2)

/-- Whether the container is a struct. -/
def Out.isDict : Out → Bool
  | .list _ => false
  | .dict _ => true

theorem push_isDict (out : Out) (p : Option Text × PyObj) : (out.push p).isDict = out.isDict := by cases out <;> rfl

theorem foldl_list (l : List PyObj) (ps : List (Option Text × PyObj)) : ps.foldl Out.push (.list l) = .list (l ++ ps.map (·.2)) := by
  induction ps generalizing l with
  | nil => simp
  | cons p ps ih => simp [Out.push, ih]

theorem foldl_dict (m : Multimap (Option Text) PyObj) (ps : List (Option Text × PyObj)) :
    ps.foldl Out.push (.dict m) = .dict (ps.foldl (fun m p => Multimap.addItem m p.1 p.2) m) := by
  induction ps generalizing m with
  | nil => simp
  | cons p ps ih => simp [Out.push, ih]

/-- An object with its key is right for a value, inside a struct or elsewhere. -/
def Loaded (s : Bool) (p : Option Text × PyObj) (n : Val) : Prop :=
  Native p.2 ∧ n.field = (if s then some p.1 else none) ∧ ∀ b, ∃ n', IsValue b seenText (Spec.Node.field n) p.2 n' ∧ Kept n n'

theorem loaded_native {s : Bool} {ps : List (Option Text × PyObj)} {ns : List Val} (h : List.Forall₂ (Loaded s) ps ns) :
    ∀ p ∈ ps, Native p.2 := by
  induction h with
  | nil => simp
  | cons h1 _ ih =>
    intro p hp
    rcases List.mem_cons.1 hp with rfl | hp
    · exact h1.1
    · exact ih p hp

theorem loaded_seq {b : Bool} {ps : List (Option Text × PyObj)} {ns : List Val} (h : List.Forall₂ (Loaded false) ps ns) :
    ∃ ns', AreValues b seenText (ps.map (·.2)) ns' ∧ KeptAll ns ns' := by
  induction h with
  | nil => exact ⟨[], .nil, .nil⟩
  | cons h1 _ ih =>
    obtain ⟨_, hf, h1⟩ := h1
    obtain ⟨n', h2, h3⟩ := h1 b
    rw [hf] at h2
    obtain ⟨ns', h4, h5⟩ := ih
    exact ⟨n' :: ns', .cons _ _ _ _ h2 h4, .cons _ _ _ _ h3 h5⟩

theorem loaded_fields {b : Bool} {ps : List (Option Text × PyObj)} {ns : List Val} (h : List.Forall₂ (Loaded true) ps ns) :
    ∃ ns', AreFields b seenText (ps.map fun p => (p.1.map .text, p.2)) ns' ∧ KeptAll ns ns' := by
  induction h with
  | nil => exact ⟨[], .nil, .nil⟩
  | @cons p n ps ns h1 _ ih =>
    obtain ⟨hi, hf, h1⟩ := h1
    obtain ⟨n', h2, h3⟩ := h1 b
    rw [hf] at h2
    obtain ⟨ns', h4, h5⟩ := ih
    obtain ⟨key, o⟩ := p
    refine ⟨n' :: ns', .cons _ key _ _ _ _ ?_ h2 h4, .cons _ _ _ _ h3 h5⟩
    cases key with
    | none => exact .unknown (native_ion hi)
    | some t => exact .text t (.inr (native_ion hi))

/-! ### Grouping -/

theorem firsts_map {α β : Type} [DecidableEq α] [DecidableEq β] (g : α → β) (hg : ∀ a b, g a = g b → a = b) (l : List α) :
    firsts (l.map g) = (firsts l).map g := by
  induction l with
  | nil => rfl
  | cons a l ih =>
    simp only [List.map_cons, firsts, ih, List.filter_map]
    congr 2
    apply List.filter_congr
    intro b _
    simp only [Function.comp, decide_not, Bool.not_eq_eq_eq_not, Bool.not_not]
    by_cases h : b = a
    · simp [h]
    · have h2 : ¬ g b = g a := fun hh => h (hg _ _ hh)
      simp [h, h2]

theorem firstKeys_eq {κ ν : Type} [DecidableEq κ] (l : List (κ × ν)) : MM.Spec.firstKeys l = firsts (l.map (·.1)) := by
  induction l with
  | nil => rfl
  | cons p l ih =>
    obtain ⟨k, v⟩ := p
    simp only [MM.Spec.firstKeys, ih, List.map_cons, firsts]

/-- The pairs that `items` of a multimap gives. -/
def groupPairs {ν : Type} (l : List (Option Text × ν)) : List (Option Text × ν) :=
  (MM.Spec.firstKeys l).flatMap fun k => (MM.Spec.vals l k).map fun v => (k, v)

theorem items_grouped (l : List (Option Text × PyObj)) :
    Multimap.items (l.foldl (fun m p => Multimap.addItem m p.1 p.2) []) = groupPairs l := by
  have key : ∀ (l pre : List (Option Text × PyObj)) (m : Multimap (Option Text) PyObj), MM.Rel m pre →
      MM.Rel (l.foldl (fun m p => Multimap.addItem m p.1 p.2) m) (pre ++ l) := by
    intro l
    induction l with
    | nil => intro pre m h; simpa using h
    | cons p l ih =>
      intro pre m h
      obtain ⟨k, v⟩ := p
      have := (MM.rel_step h (.add k v)).2
      simpa [MM.step] using ih (pre ++ [(k, v)]) _ this
  have := (MM.rel_step (key l [] [] MM.rel_empty) .items).1
  simpa [MM.step, MM.Spec.step, groupPairs] using this

theorem vals_related {ν : Type} {R : Option Text × ν → Val → Prop} (hR : ∀ p n, R p n → Spec.Node.field n = some p.1)
    {ps : List (Option Text × ν)} {ns : List Val} (h : List.Forall₂ R ps ns) (name : Option Text) :
    List.Forall₂ R ((MM.Spec.vals ps name).map fun v => (name, v)) (ns.filter fun n => Spec.Node.field n = some name) := by
  induction h with
  | nil => exact .nil
  | @cons p n l ns h1 _ ih =>
    have hf := hR p n h1
    obtain ⟨k, v⟩ := p
    by_cases hn : k = name
    · subst hn
      simp only [MM.Spec.vals, List.filter_cons, hf, decide_true, if_true, List.map_cons] at ih ⊢
      exact .cons h1 ih
    · have h5 : ¬ some k = some name := fun hh => hn (Option.some.inj hh)
      simp only [MM.Spec.vals, List.filter_cons, hf, h5, hn, decide_false, Bool.false_eq_true, if_false] at ih ⊢
      exact ih

theorem group_related {ν : Type} {R : Option Text × ν → Val → Prop} (hR : ∀ p n, R p n → Spec.Node.field n = some p.1)
    {ps : List (Option Text × ν)} {ns : List Val} (h : List.Forall₂ R ps ns) : List.Forall₂ R (groupPairs ps) (grouped ns) := by
  have hk : MM.Spec.firstKeys ps = firsts (ns.filterMap Spec.Node.field) := by
    rw [firstKeys_eq]
    congr 1
    induction h with
    | nil => rfl
    | cons h1 _ ih => simp [hR _ _ h1, ih]
  rw [groupPairs, grouped, hk]
  generalize firsts (ns.filterMap Spec.Node.field) = ks
  induction ks with
  | nil => exact .nil
  | cons k ks ih =>
    simp only [List.flatMap_cons]
    exact List.rel_append (vals_related hR h k) ih

theorem groupPairs_mem {ν : Type} {l : List (Option Text × ν)} {p : Option Text × ν} (h : p ∈ groupPairs l) : p ∈ l := by
  simp only [groupPairs, MM.Spec.vals, List.mem_flatMap, List.mem_map, List.mem_filter, decide_eq_true_eq] at h
  obtain ⟨k, _, v, ⟨q, ⟨hq, rfl⟩, rfl⟩, rfl⟩ := h
  exact hq

/-- The fields of a dictionary with these items. -/
theorem fields_iff {b : Bool} {ps : List (Option Text × PyObj)} {ns : List Val} :
    AreFields b seenText (ps.map fun p => (p.1.map .text, p.2)) ns ↔
      List.Forall₂ (fun p n => IsFieldName seenText p.2 (p.1.map .text) p.1 ∧ IsValue b seenText (some p.1) p.2 n) ps ns := by
  induction ps generalizing ns with
  | nil => exact ⟨fun h => by cases h; exact .nil, fun h => by cases h; exact .nil⟩
  | cons p ps ih =>
    obtain ⟨k, o⟩ := p
    constructor
    · intro h
      cases h with
      | cons _ name _ n _ ns h1 h2 h3 =>
        have : name = k := by
          cases k with
          | none => cases h1; rfl
          | some t => cases h1; rfl
        subst this
        exact .cons ⟨h1, h2⟩ (ih.1 h3)
    · intro h
      cases h with
      | cons h1 h3 => exact .cons _ k _ _ _ _ h1.1 h1.2 (ih.2 h3)

theorem value_field {b : Bool} {f : Option (Option Text)} {o : PyObj} {n : Val} (h : IsValue b seenText f o n) : Spec.Node.field n = f := by
  cases h <;> rfl

theorem named {b : Bool} {items : List (Option SymArg × PyObj)} {ns : List Val} (h : AreFields b seenText items ns) :
    ∀ n ∈ ns, (Spec.Node.field n).isSome := by
  induction ns generalizing items with
  | nil => simp
  | cons n ns ih =>
    cases h with
    | cons _ name _ _ _ _ _ h2 h3 =>
      intro m hm
      rcases List.mem_cons.1 hm with rfl | hm
      · rw [value_field h2]; rfl
      · exact ih h3 m hm

/-- The finished container. -/
theorem loaded_container {ty : CType} {ks : List SymbolToken} {a' : List (Option Text)} (hks : allSome seenText (ks.map .tok) = some a')
    {ps : List (Option Text × PyObj)} {ns : List Val} (h : List.Forall₂ (Loaded (ty = .struct)) ps ns) :
    Native ((ps.foldl Out.push (if ty.ty = .struct then .dict [] else .list [])).obj ty.ty ks) ∧
    ∀ b f', ∃ n', IsValue b seenText f' ((ps.foldl Out.push (if ty.ty = .struct then .dict [] else .list [])).obj ty.ty ks) n' ∧
      Kept (.cont f' a' ty ns) n' := by
  by_cases hs : ty = .struct
  · subst hs
    simp only [CType.ty, if_true, foldl_dict, Out.obj]
    rw [items_grouped]
    refine ⟨?_, fun b f' => ?_⟩
    · simp only [Native, nativeItems_iff, List.mem_map]
      rintro q ⟨p, hp1, rfl⟩
      refine ⟨fun k hk => by cases hpk : p.1 <;> simp [hpk] at hk, ?_⟩
      exact loaded_native h p (groupPairs_mem hp1)
    simp only [decide_true] at h
    obtain ⟨ns2, h3, h4⟩ := loaded_fields (b := b) h
    have h5 := fields_iff.2 (group_related (fun p n h => value_field h.2) (fields_iff.1 h3))
    exact ⟨.cont f' a' .struct (grouped ns2), .dict f' _ _ _ _ _ (.ion _ _) hks h5, .struct _ _ _ _ h4 (named h3)⟩
  · have : ty.ty ≠ .struct := by cases ty <;> simp [CType.ty] at hs ⊢
    simp only [this, if_false, foldl_list, List.nil_append, Out.obj]
    simp only [hs, decide_false] at h
    refine ⟨?_, fun b f' => ?_⟩
    · simp only [Native, nativeAll_iff, List.mem_map]
      rintro o ⟨p, hp1, rfl⟩
      exact loaded_native h p hp1
    obtain ⟨ns', h1, h2⟩ := loaded_seq (b := b) h
    exact ⟨.cont f' a' ty ns', .seq f' _ _ ty _ _ _ (.ion _ _) hs hks h1, .seq _ _ _ _ _ hs h2⟩

theorem add_push {t : Table} {s : Bool} {f : Option Nat} {x : Option (Option Text)} (hs : f.isSome = s) (h : f.map t.text = x.map .ok)
    {out : Out} (ho : out.isDict = s) {e : Event} (he : e.fieldName = t.field f) (o : PyObj) :
    out.add e o = .ok (out.push (x.getD none, o)) ∧ x = (if s then some (x.getD none) else none) := by
  obtain ⟨k, hk1, hk2⟩ := field_of_text h
  rw [← he] at hk1
  cases f with
  | none =>
    simp only [Option.isSome_none] at hs
    subst hs
    cases out with
    | dict => cases ho
    | list l =>
      cases x with
      | some _ => simp at h
      | none => exact ⟨rfl, rfl⟩
  | some n =>
    simp only [Option.isSome_some] at hs
    subst hs
    cases out with
    | list => cases ho
    | dict m =>
      cases x with
      | none => simp at h
      | some x =>
        cases k with
        | none => cases hk2
        | some k =>
          simp only [Option.map_some, Option.some.injEq] at hk2
          subst hk2
          exact ⟨by simp [Out.add, hk1, Out.push], rfl⟩

/-- What `load` makes of the events of well-formed values. -/
theorem load_values {R : Type} (step : R → RawReader.Cmd → Option (Except PyErr Event × R)) {s : Bool} {items : List (Spec.Node Nat)}
    (hf : Formed s items) : Spec.AllScalars RawReader.Readable items → ∀ {t : Table} {texts : List Val},
    items.map (Node.map t.text) = texts.map (Node.map .ok) → ∃ ps, List.Forall₂ (Loaded s) ps texts ∧
      ∀ d endType (out : Out) src src2, (endType = .containerEnd ∨ endType = .streamEnd) → out.isDict = s →
        Delivers step src (eventsList t d items) src2 →
        loadLoop step endType out src = loadLoop step endType (ps.foldl Out.push out) src2 := by
  induction hf with
  | nil s =>
    intro _ t texts h
    cases texts with
    | cons => simp at h
    | nil =>
      refine ⟨[], .nil, ?_⟩
      intro d endType out src src2 _ _ hd
      cases hd
      rfl
  | scalar s f a x ns hfs hx _ ih =>
    intro hr t texts h
    cases hr with
    | scalar _ _ _ _ hrx hr =>
    cases texts with
    | nil => simp at h
    | cons y texts =>
      simp only [List.map_cons, List.cons.injEq] at h
      obtain ⟨h1, h2⟩ := h
      cases y with
      | cont => simp [Node.map] at h1
      | scalar f' a' y =>
        simp only [Node.map, Node.scalar.injEq] at h1
        obtain ⟨hfield, hann, hval⟩ := h1
        obtain ⟨ps, i1, i2⟩ := ih hr h2
        obtain ⟨o, o1, o2, o3⟩ := scalar_object (t := t) (d := 0) (f := f) hx hrx hann hval
        refine ⟨(f'.getD none, o) :: ps, .cons ⟨o2, ?_, fun b => ⟨_, o3 b _, .scalar _ _ _⟩⟩ i1, ?_⟩
        · exact (add_push (e := { eventType := .scalar, ionType := none, value := .ok none, fieldName := t.field f, annotations := .ok [], depth := none })
            (out := if s then .dict [] else .list []) hfs hfield (by cases s <;> rfl) rfl o).2
        · intro d endType out src src2 he ho hd
          simp only [eventsList, Node.events, List.singleton_append] at hd
          cases hd with
          | cons _ src1 _ _ _ d1 d2 =>
          rw [loadLoop.eq_def, d1]
          have hne : ¬ ((Spec.Node.scalar f a x).seen t d).eventType = endType := by
            rcases he with rfl | rfl <;> simp [Spec.Node.seen]
          have hsc : scalarObj ((Spec.Node.scalar f a x).seen t d) = .ok o := by
            rw [← o1]; rfl
          have hadd := (add_push (e := (Spec.Node.scalar f a x).seen t d) hfs hfield ho rfl o).1
          simp only [bind, Option.bind_some, hne, if_false, hsc, hadd]
          simp only [Spec.Node.seen, reduceCtorEq, if_false, if_true]
          exact i2 d endType _ src1 src2 he (by rw [push_isDict, ho]) d2
  | cont s f a ty items ns hfs _ _ ih1 ih2 =>
    intro hr t texts h
    cases hr with
    | cont _ _ _ _ _ hr1 hr =>
    cases texts with
    | nil => simp at h
    | cons y texts =>
      simp only [List.map_cons, List.cons.injEq] at h
      obtain ⟨h1, h2⟩ := h
      cases y with
      | scalar => simp [Node.map] at h1
      | cont f' a' ty' items' =>
        simp only [Node.map, Node.cont.injEq, mapAll_eq] at h1
        obtain ⟨hfield, hann, rfl, hit⟩ := h1
        obtain ⟨qs, j1, j2⟩ := ih1 hr1 hit
        obtain ⟨ps, i1, i2⟩ := ih2 hr h2
        obtain ⟨ks, hks1, hks2⟩ := findAll_of_text hann
        obtain ⟨o2, o3⟩ := loaded_container hks2 j1
        generalize hob : (qs.foldl Out.push (if ty.ty = .struct then .dict [] else .list [])).obj ty.ty ks = o at o2 o3
        refine ⟨(f'.getD none, o) :: ps, .cons ⟨o2, ?_, fun b => o3 b _⟩ i1, ?_⟩
        · exact (add_push (e := { eventType := .scalar, ionType := none, value := .ok none, fieldName := t.field f, annotations := .ok [], depth := none })
            (out := if s then .dict [] else .list []) hfs hfield (by cases s <;> rfl) rfl o).2
        · intro d endType out src src2 he ho hd
          simp only [eventsList, Node.events, List.cons_append, List.append_assoc] at hd
          cases hd with
          | cons _ src1 _ _ _ d1 d2 =>
          obtain ⟨src3, d3, d4⟩ := d2.split
          cases d4 with
          | cons _ src4 _ _ _ d5 d6 =>
          rw [loadLoop.eq_def, d1]
          have hne : ¬ ((Spec.Node.cont f a ty items).seen t d).eventType = endType := by
            rcases he with rfl | rfl <;> simp [Spec.Node.seen]
          have hadd := (add_push (e := (Spec.Node.cont f a ty items).seen t d) hfs hfield ho rfl o).1
          have hnew : newContainer ((Spec.Node.cont f a ty items).seen t d) = .ok (if ty.ty = .struct then .dict [] else .list [], ty.ty, ks) := by
            simp [newContainer, Spec.Node.seen, hks1]
          have hinner := j2 (d + 1) .containerEnd (if ty.ty = .struct then .dict [] else .list []) src1 src3 (.inl rfl)
            (by cases ty <;> rfl) d3
          have hdone : loadLoop step .containerEnd (qs.foldl Out.push (if ty.ty = .struct then .dict [] else .list [])) src3 =
              some (.ok (qs.foldl Out.push (if ty.ty = .struct then .dict [] else .list []), src4)) := by
            rw [loadLoop.eq_def, d5]
            simp [bind, endSeen]
          rw [hdone] at hinner
          simp only [bind, Option.bind_some, hne, if_false, hnew, hinner, hob, hadd]
          simp only [Spec.Node.seen, if_true]
          exact i2 d endType _ src4 src2 he (by rw [push_isDict, ho]) d6

/-! ## Grouping keeps the value in the data model -/

theorem grouped_perm (xs : List Val) (h : ∀ x ∈ xs, (Spec.Node.field x).isSome) : xs.Perm (grouped xs) := by
  have key : ∀ (ks : List (Option Text)) (xs : List Val), ks.Nodup → (∀ x ∈ xs, ∃ k ∈ ks, Spec.Node.field x = some k) →
      xs.Perm (ks.flatMap fun name => xs.filter fun n => Spec.Node.field n = some name) := by
    intro ks
    induction ks with
    | nil =>
      intro xs _ h
      cases xs with
      | nil => exact .refl _
      | cons x xs => obtain ⟨k, hk, _⟩ := h x (by simp); cases hk
    | cons k ks ih =>
      intro xs hn h
      rw [List.nodup_cons] at hn
      have hrest := ih (xs.filter fun n => ¬ Spec.Node.field n = some k) hn.2 (by
        intro x hx
        simp only [List.mem_filter, decide_not, Bool.not_eq_eq_eq_not, Bool.not_true, decide_eq_false_iff_not] at hx
        obtain ⟨k', h1, h2⟩ := h x hx.1
        rcases List.mem_cons.1 h1 with rfl | h1
        · exact absurd h2 hx.2
        · exact ⟨k', h1, h2⟩)
      simp only [List.flatMap_cons]
      have hsplit : ((xs.filter fun n => Spec.Node.field n = some k) ++ (xs.filter fun n => ¬ Spec.Node.field n = some k)).Perm xs := by
        have := List.filter_append_perm (fun n => decide (Spec.Node.field n = some k)) xs
        simpa using this
      refine hsplit.symm.trans (List.Perm.append_left _ (hrest.trans ?_))
      apply List.Perm.of_eq
      have : ∀ (js : List (Option Text)), k ∉ js → (js.flatMap fun name => List.filter (fun n => decide (Spec.Node.field n = some name))
          (List.filter (fun n => decide (¬ Spec.Node.field n = some k)) xs)) =
          js.flatMap fun name => List.filter (fun n => decide (Spec.Node.field n = some name)) xs := by
        intro js
        induction js with
        | nil => intro _; rfl
        | cons j js ihj =>
          intro hj
          rw [List.flatMap_cons, List.flatMap_cons, ihj (fun h => hj (by simp [h])), List.filter_filter]
          congr 1
          apply List.filter_congr
          intro x _
          by_cases e : x.field = some j
          · have : ¬ j = k := fun hh => hj (by simp [hh])
            simp [e, this]
          · simp [e]
      exact this ks hn.1
  refine key _ xs ?_ ?_
  · have : ∀ (l : List (Option Text)), (firsts l).Nodup := by
      intro l
      induction l with
      | nil => simp [firsts]
      | cons a l ih => simp only [firsts, List.nodup_cons]; exact ⟨by simp, ih.filter _⟩
    exact this _
  · have hf : ∀ (l : List (Option Text)) (a : Option Text), a ∈ l → a ∈ firsts l := by
      intro l
      induction l with
      | nil => simp
      | cons b l ih =>
        intro a ha
        by_cases e : a = b
        · simp [firsts, e]
        · have := ih a (by simpa [e] using ha)
          simp [firsts, e, this]
    intro x hx
    have := h x hx
    obtain ⟨k, hk⟩ := Option.isSome_iff_exists.1 this
    exact ⟨k, hf _ _ (List.mem_filterMap.2 ⟨x, hx, hk⟩), hk⟩

theorem kept_same {x y : Val} (h : Kept x y) : Same x y := by
  refine Kept.rec (motive_1 := fun x y _ => Same x y) (motive_2 := fun xs ys _ => SameAll xs ys) ?_ ?_ ?_ ?_ ?_ h
  · intro f a x; exact .scalar _ _ _
  · intro f a ty xs ys _ _ ih; exact .seq _ _ _ _ _ ih
  · intro f a xs ys _ hn ih; exact .struct _ _ _ _ _ ih (grouped_perm _ hn)
  · exact .nil
  · intro x y xs ys _ _ h1 h2; exact .cons _ _ _ _ h1 h2

/-! ## Whole documents -/

/-- The meaning of the objects that `load` returns: Ion values, symbols by their texts, all with Ion nature. -/
def Mean (objs : List PyObj) (values : List Val) : Prop :=
  (∀ o ∈ objs, Native o) ∧ ∀ b, ∃ ns, AreValues b seenText objs ns ∧ KeptAll values ns

theorem user_formed {catalog : Catalog} {segs : List (List (Spec.Node Nat))} (P : Spec.Node Nat → Prop)
    (h : ∀ items ∈ segs, ∀ n ∈ items, P n) : ∀ {t : Table} {vs : List (Table × Spec.Node Nat)},
    userValues catalog t (tops segs) = .ok vs → ∀ v ∈ vs, P v.2 := by
  have key : ∀ (l : List Top), (∀ n, Top.value n ∈ l → P n) → ∀ {t : Table} {vs : List (Table × Spec.Node Nat)},
      userValues catalog t l = .ok vs → ∀ v ∈ vs, P v.2 := by
    intro l
    induction l with
    | nil => intro _ t vs h; cases h; simp
    | cons a l ih =>
      intro hl t vs h
      cases a with
      | marker => exact ih (fun n hn => hl n (by simp [hn])) h
      | value n =>
        simp only [userValues, bind, Except.bind] at h
        cases hsv : systemValue catalog t n with
        | error err => rw [hsv] at h; cases h
        | ok r =>
          rw [hsv] at h
          cases r with
          | some t' => exact ih (fun n hn => hl n (by simp [hn])) h
          | none =>
            simp only at h
            cases hr : userValues catalog t l with
            | error err => rw [hr] at h; cases h
            | ok rest =>
              rw [hr] at h
              simp only [pure, Except.pure, Except.ok.injEq] at h
              subst h
              intro v hv
              rcases List.mem_cons.1 hv with rfl | hv
              · exact hl n (by simp)
              · exact ih (fun n hn => hl n (by simp [hn])) hr v hv
  intro t vs hu
  refine key (tops segs) ?_ hu
  intro n hn
  simp only [tops, List.mem_flatMap, List.mem_cons, reduceCtorEq, List.mem_map, Top.value.injEq, exists_eq_right, false_or] at hn
  obtain ⟨items, h1, h2⟩ := hn
  exact h items h1 n h2

theorem formed_mem {s : Bool} {items : List (Spec.Node Nat)} (h : Formed s items) : ∀ n ∈ items, Formed s [n] := by
  induction items with
  | nil => simp
  | cons m items ih =>
    cases h with
    | scalar _ f a x _ h1 h2 h3 =>
      intro n hn
      rcases List.mem_cons.1 hn with rfl | hn
      · exact .scalar s f a x [] h1 h2 (.nil _)
      · exact ih h3 n hn
    | cont _ f a ty ch _ h1 h2 h3 =>
      intro n hn
      rcases List.mem_cons.1 hn with rfl | hn
      · exact .cont s f a ty ch [] h1 h2 (.nil _)
      · exact ih h3 n hn

theorem scalars_mem {P : Scalar Nat → Prop} {items : List (Spec.Node Nat)} (h : Spec.AllScalars P items) :
    ∀ n ∈ items, Spec.AllScalars P [n] := by
  induction items with
  | nil => simp
  | cons m items ih =>
    cases h with
    | scalar f a x _ h1 h3 =>
      intro n hn
      rcases List.mem_cons.1 hn with rfl | hn
      · exact .scalar f a x [] h1 .nil
      · exact ih h3 n hn
    | cont f a ty ch _ h2 h3 =>
      intro n hn
      rcases List.mem_cons.1 hn with rfl | hn
      · exact .cont f a ty ch [] h2 .nil
      · exact ih h3 n hn

theorem load_tables {R : Type} (step : R → RawReader.Cmd → Option (Except PyErr Event × R)) (vs : List (Table × Spec.Node Nat)) :
    (∀ v ∈ vs, Formed false [v.2] ∧ Spec.AllScalars RawReader.Readable [v.2]) → ∀ {texts : List Val},
    List.Forall₂ (fun v m => v.2.map v.1.text = m.map .ok) vs texts → ∃ ps, List.Forall₂ (Loaded false) ps texts ∧
      ∀ (out : Out) src src2, out.isDict = false → Delivers step src (vs.flatMap fun v => v.2.events v.1 0) src2 →
        loadLoop step .streamEnd out src = loadLoop step .streamEnd (ps.foldl Out.push out) src2 := by
  induction vs with
  | nil =>
    intro _ texts h
    cases h
    refine ⟨[], .nil, ?_⟩
    intro out src src2 _ hd
    cases hd
    rfl
  | cons v vs ih =>
    intro hv texts h
    cases h with
    | @cons _ m _ texts h1 h2 =>
      obtain ⟨ps, i1, i2⟩ := ih (fun w hw => hv w (by simp [hw])) h2
      obtain ⟨qs, j1, j2⟩ := load_values step (hv v (by simp)).1 (hv v (by simp)).2 (t := v.1) (texts := [m]) (by simp [h1])
      refine ⟨qs ++ ps, ?_, ?_⟩
      · have : List.Forall₂ (Loaded false) (qs ++ ps) ([m] ++ texts) := by
          cases j1 with
          | cons k1 k2 => cases k2; exact .cons k1 i1
        exact this
      · intro out src src2 ho hd
        rw [List.flatMap_cons] at hd
        obtain ⟨src1, d1, d2⟩ := hd.split
        rw [j2 0 .streamEnd out src src1 (.inr rfl) ho (by simpa [eventsList] using d1), List.foldl_append]
        refine i2 _ src1 src2 ?_ d2
        clear j2
        clear j1
        induction qs generalizing out with
        | nil => exact ho
        | cons q qs ihq => exact ihq _ (by rw [push_isDict, ho])

/-- **C13, C12** (`load`).  For every binary document (cut into chunks in any way) whose symbols are defined, `load` returns
objects that mean exactly the user's values of the document, in order; with `single_value` it succeeds if and only if there is
exactly one. -/
theorem C13_load_document (doc : Bytes) (segs : List (List (Spec.Node Nat))) (hs : IsStream doc segs)
    (hr : ∀ items ∈ segs, Spec.AllScalars RawReader.Readable items) (catalog : Catalog)
    (hcat : Catalog.Registered catalog) (hp : Plain catalog systemTable (tops segs)) (vs : List (Table × Spec.Node Nat))
    (hu : userValues catalog systemTable (tops segs) = .ok vs) (values : List Val)
    (ht : List.Forall₂ (fun v m => v.2.map v.1.text = m.map .ok) vs values) :
    ∃ objs, Mean objs values ∧ objs.length = values.length ∧ ∀ cs, RawReader.Chunks cs doc →
      loadBinary catalog false cs = some (.ok objs) ∧
      loadBinary catalog true cs = some (if values.length = 1 then .ok objs else .error .ionException) := by
  have hes : ∀ e ∈ vs.flatMap fun v => v.2.events v.1 0, e.eventType.isStreamSignal = false := by
    have : ∀ (n : Spec.Node Nat) (t : Table) (d : Nat), ∀ e ∈ n.events t d, e.eventType.isStreamSignal = false := by
      intro n
      refine Spec.Node.rec (motive_1 := fun n => ∀ (t : Table) (d : Nat), ∀ e ∈ n.events t d, e.eventType.isStreamSignal = false)
        (motive_2 := fun ns => ∀ (t : Table) (d : Nat), ∀ e ∈ eventsList t d ns, e.eventType.isStreamSignal = false) ?_ ?_ ?_ ?_ n
      · intro f a x t d e he
        simp only [Spec.Node.events, List.mem_singleton] at he
        subst he; rfl
      · intro f a ty ch ih t d e he
        simp only [Spec.Node.events, List.mem_cons, List.mem_append, List.not_mem_nil, or_false] at he
        rcases he with rfl | he | rfl
        · rfl
        · exact ih _ _ e he
        · rfl
      · intro t d e he; simp [eventsList] at he
      · intro n ns ih1 ih2 t d e he
        simp only [eventsList, List.mem_append] at he
        exact he.elim (ih1 t d e) (ih2 t d e)
    intro e he
    obtain ⟨v, -, hv⟩ := List.mem_flatMap.1 he
    exact this v.2 v.1 0 e hv
  obtain ⟨ps, i1, i2⟩ := load_tables (ManagedReader.send RawReader.send) vs (fun v hv =>
    ⟨user_formed (fun n => Formed false [n]) (fun items hi => formed_mem (stream_formed hs items hi)) hu v hv,
     user_formed (fun n => Spec.AllScalars RawReader.Readable [n]) (fun items hi => scalars_mem (hr items hi)) hu v hv⟩) ht
  have hlen : ps.length = values.length := i1.length_eq
  refine ⟨ps.map (·.2), ⟨?_, fun b => loaded_seq i1⟩, by simpa using hlen, ?_⟩
  · intro o ho
    obtain ⟨p, hp, rfl⟩ := List.mem_map.1 ho
    clear hlen i2 hu ht
    induction i1 with
    | nil => cases hp
    | cons h1 _ ih =>
      rcases List.mem_cons.1 hp with rfl | hp
      · exact h1.1
      · exact ih hp (List.mem_map_of_mem hp)
  · intro cs hc
    have hall := ManagedReader.C20_all_user_values_of_plain_documents doc segs hs hr cs hc catalog hcat hp vs hu
    obtain ⟨src2, d1, d2⟩ := pulls_delivers RawReader.send streamEndSeen rfl _ hes hall
    have hload := i2 (.list []) _ src2 rfl d1
    rw [foldl_list, List.nil_append, loadLoop.eq_def _ _ _ src2, d2] at hload
    simp only [bind, Option.bind_some, streamEnd, if_true] at hload
    refine ⟨by simp [loadBinary, loadFrom, hload, bind, Out.values], ?_⟩
    simp only [loadBinary, loadFrom, hload, bind, Option.bind_some, Out.values, true_and, List.length_map, ne_eq, ← hlen]
    by_cases h : ps.length = 1
    · simp [h]
    · rw [if_pos h, if_neg h]

/-! ## `dump`, then `load` -/

theorem pieces_chunks (size : Nat) (hs : 0 < size) (doc : Bytes) : RawReader.Chunks (pieces size doc) doc := by
  induction doc using pieces.induct size with
  | case1 doc h =>
    rw [pieces, dif_pos h]
    rcases h with h | h
    · subst h; exact ⟨rfl, by simp⟩
    · omega
  | case2 doc h ih =>
    rw [pieces, dif_neg h]
    simp only [not_or] at h
    refine ⟨?_, ?_⟩
    · rw [List.flatten_cons, ih.1, List.take_append_drop]
    · intro c hc
      rcases List.mem_cons.1 hc with rfl | hc
      · intro h0
        have := congrArg List.length h0
        have hpos : 0 < doc.length := List.length_pos_iff.2 h.1
        simp only [List.length_take, List.length_nil] at this
        omega
      · exact ih.2 c hc

theorem first_marker (imports : Option (List SymbolTable)) (evs : List IonEvent) :
    ∃ cs, (runEvents (ManagedWriter.step imports) ManagedWriter.init (ION_VERSION_MARKER_EVENT :: evs)).1 = IVM :: cs := by
  have h := ManagedWriter.step_marker imports true
  rw [show ({ ManagedWriter.init with ivmNeeded := true } : ManagedWriter.State) = ManagedWriter.init from rfl] at h
  rw [runEvents, h]
  exact ⟨_, rfl⟩

/-- **C45** (dump).  Whatever is dumped, with whatever options, and even if an exception ends the call: the output in the
binary format starts with the version marker. -/
theorem C45_dump_starts_with_marker (imports : Option (List SymbolTable)) (sequenceAsStream tupleAsSexp : Bool) (o : PyObj) :
    [0xE0, 0x01, 0x00, 0xEA] <+: (dump imports sequenceAsStream tupleAsSexp o).1.flatten := by
  have hfst : ∀ sent : Sent, (Sent.andThen ([ION_VERSION_MARKER_EVENT], none) sent).1 = ION_VERSION_MARKER_EVENT :: sent.1 := fun _ => rfl
  unfold dump feed
  rw [hfst]
  obtain ⟨cs, hcs⟩ := first_marker imports (dumpElems tupleAsSexp 0 (topLevel sequenceAsStream o)).1
  generalize hrun : runEvents (ManagedWriter.step imports) ManagedWriter.init
    (ION_VERSION_MARKER_EVENT :: (dumpElems tupleAsSexp 0 (topLevel sequenceAsStream o)).1) = r at hcs ⊢
  have hpre : ∀ more : List Bytes, [0xE0, 0x01, 0x00, 0xEA] <+: (r.1 ++ more).flatten := by
    intro more
    rw [hcs]
    exact ⟨(cs ++ more).flatten, by simp [IVM]⟩
  obtain ⟨chunks, res⟩ := r
  have hp0 := hpre []
  rw [List.append_nil] at hp0
  cases res with
  | error err => exact hp0
  | ok s =>
    simp only
    cases (Sent.andThen ([ION_VERSION_MARKER_EVENT], none) (dumpElems tupleAsSexp 0 (topLevel sequenceAsStream o))).2 with
    | some err => exact hp0
    | none =>
      simp only
      generalize runEvents (ManagedWriter.step imports) s [ION_STREAM_END_EVENT] = r2
      obtain ⟨c2, res2⟩ := r2
      cases res2 <;> exact hpre c2

/-- **C45** (load).  `load` takes a stream of bytes for binary exactly if it starts with the version marker; hence every
binary dump. -/
theorem C45_format_detection (contents : Bytes) :
    (formatOf false contents = .binary ↔ [0xE0, 0x01, 0x00, 0xEA] <+: contents) ∧
    (formatOf false contents = .text ↔ ¬ [0xE0, 0x01, 0x00, 0xEA] <+: contents) ∧
    (∀ imports sequenceAsStream tupleAsSexp o, dumps imports sequenceAsStream tupleAsSexp o = .ok contents →
      formatOf false contents = .binary) := by
  have key : formatOf false contents = .binary ↔ [0xE0, 0x01, 0x00, 0xEA] <+: contents := by
    rw [List.prefix_iff_eq_take]
    by_cases h : contents.take 4 = IVM
    · simp only [formatOf, h, if_true]
      simp [IVM] at h ⊢
      exact h.symm
    · simp only [formatOf, h, if_false]
      simp only [Bool.false_eq_true, if_false, reduceCtorEq, false_iff]
      intro h'
      exact h h'.symm
  refine ⟨key, ?_, ?_⟩
  · rw [← key]
    unfold formatOf
    by_cases h : contents.take 4 = IVM <;> simp [h]
  · intro imports s b o h
    rw [key]
    have hd := C45_dump_starts_with_marker imports s b o
    unfold dumps at h
    generalize dump imports s b o = r at h hd
    obtain ⟨cs, res⟩ := r
    cases res with
    | error => cases h
    | ok => cases h; exact hd

/-- **C12, C13** (binary, Python objects).  A Python object (or, with `sequence_as_stream`, the elements of a sequence) that
stands for Ion values with expressible scalars and symbols, none of which looks like a system value, is written without
exception; `load` and `loads` of the output, with a catalog that holds the imported tables, returns objects that mean the
same Ion values: types, annotations, field names, order of the elements of sequences, repeated fields, symbols by their
texts.  With `single_value` this succeeds if and only if there is exactly one value. -/
theorem C12_dump_load_partial (imports : Option (List SymbolTable)) (history : List SymbolTable)
    (hs : ∀ t ∈ history, Catalog.Spec.Shared t) (catalog : Catalog) (hc : Catalog.Spec.registerAll history = .ok catalog)
    (hi : ∀ t ∈ imports.getD [], Available history t) (T0 : SymbolTable)
    (h0 : SymbolTable.new .local [] (imports := imports) = .ok T0) (sequenceAsStream tupleAsSexp : Bool) (o : PyObj) (values : List Val)
    (hv : AreValues tupleAsSexp (argText T0.contents) (topLevel sequenceAsStream o) values)
    (hsym : ∀ a ∈ symbolsInAll (topLevel sequenceAsStream o), GoodSym T0.symbols.length a)
    (hval : ∀ v ∈ valuesInAll (topLevel sequenceAsStream o), Expressible v) (hu : ∀ n ∈ values, ¬ SystemLike n) :
    ∃ doc, dumps imports sequenceAsStream tupleAsSexp o = .ok doc ∧ ∃ objs, Mean objs values ∧ objs.length = values.length ∧
      (∀ cs, RawReader.Chunks cs doc → loadBinary catalog false cs = some (.ok objs) ∧
        loadBinary catalog true cs = some (if values.length = 1 then .ok objs else .error .ionException)) ∧
      loadsBinary catalog false doc = some (.ok objs) ∧
      loadsBinary catalog true doc = some (if values.length = 1 then .ok objs else .error .ionException) := by
  obtain ⟨evs, e1, e2, e3⟩ := dump_values hv
  have hfine := e3 T0.symbols.length hsym hval
  have hret : Returns T0.contents T0.symbols.length evs :=
    ⟨⟨values, e2, hu⟩, fun e he => (hfine e he).1, fun e he => (hfine e he).2⟩
  have hg : ∀ t ∈ imports.getD [], GoodImport t := fun t ht => available_good hs (hi t ht)
  obtain ⟨chunks, segs, h1, h2, h3⟩ := C14_binary_writer_stream imports hg T0 h0 [⟨1, evs⟩] (fun b hb => by
    simp only [List.mem_singleton] at hb
    subst hb
    exact ⟨given_balanced e2, fun e he => ⟨(hfine e he).1, (hfine e he).2.1, (hfine e he).2.2.1⟩⟩)
  obtain ⟨vs, texts, i1, i2, i3, i4, -⟩ := segments_read hs hc hi h0 h3 (stream_formed h2)
    (fun b hb => by
      have := List.mem_of_mem_filter hb
      simp only [List.mem_singleton] at this
      subst this
      exact hret)
  have hvals : texts = values := by
    simp only [Batch.isEmpty, List.filter_cons, List.filter_nil] at i1
    simp at i1
    rw [e2] at i1
    exact (Option.some.inj i1).symm
  subst hvals
  have hdump : dumps imports sequenceAsStream tupleAsSexp o = .ok chunks.flatten := by
    simp only [List.flatMap_cons, List.flatMap_nil, List.append_nil, Batch.events, List.replicate_one] at h1
    rw [RawWriter.runEvents_append] at h1
    unfold dumps dump feed
    rw [e1, andThen_ok]
    simp only
    generalize runEvents (ManagedWriter.step imports) ManagedWriter.init ([ION_VERSION_MARKER_EVENT] ++ evs) = r at h1
    obtain ⟨c, res⟩ := r
    cases res with
    | error err => simp at h1
    | ok s =>
      simp only at h1 ⊢
      generalize runEvents (ManagedWriter.step imports) s [ION_STREAM_END_EVENT] = r2 at h1
      obtain ⟨c2, res2⟩ := r2
      simp only [Prod.mk.injEq] at h1
      obtain ⟨rfl, rfl⟩ := h1
      rfl
  refine ⟨chunks.flatten, hdump, ?_⟩
  obtain ⟨objs, k1, k2, k3⟩ := C13_load_document chunks.flatten segs h2 i2 catalog ⟨history, hs, hc⟩ (i3 systemTable).2 vs (i3 systemTable).1 texts i4
  exact ⟨objs, k1, k2, k3, k3 _ (pieces_chunks _ (by decide) _)⟩

/-- **C12** (one value, without imports).  `loads(dumps(o))`. -/
theorem C12_loads_dumps_partial (T0 : SymbolTable) (h0 : SymbolTable.new .local [] (imports := none) = .ok T0) (tupleAsSexp : Bool) (o : PyObj)
    (value : Val) (hv : IsValue tupleAsSexp (argText T0.contents) none o value) (hsym : ∀ a ∈ symbolsIn o, GoodSym T0.symbols.length a)
    (hval : ∀ v ∈ valuesIn o, Expressible v) (hu : ¬ SystemLike value) :
    ∃ doc, dumps none false tupleAsSexp o = .ok doc ∧ ∃ obj, loadsBinary [] true doc = some (.ok [obj]) ∧
      ∀ b, ∃ value', IsValue b seenText none obj value' ∧ Same value value' := by
  obtain ⟨doc, h1, objs, h2, h3, -, -, h4⟩ := C12_dump_load_partial none [] (by simp) [] rfl (by simp) T0 h0 false tupleAsSexp o [value]
    (.cons _ _ _ _ hv .nil) (by simpa [topLevel, symbolsInAll] using hsym) (by simpa [topLevel, valuesInAll] using hval) (by simpa using hu)
  simp only [List.length_singleton] at h3
  obtain ⟨obj, rfl⟩ := List.length_eq_one_iff.1 h3
  refine ⟨doc, h1, obj, by simpa using h4, fun b => ?_⟩
  obtain ⟨ns, k1, k2⟩ := h2.2 b
  cases k1 with
  | cons _ n _ ns k1 _ =>
    cases k2 with
    | cons _ _ _ _ k2 _ => exact ⟨n, k1, kept_same k2⟩

/-- **C13.**  A sequence dumped with `sequence_as_stream` comes back, element by element, from `load` with
`single_value=False`; `single_value=True` succeeds exactly if it has one element. -/
theorem C13_stream_round_trip_partial (T0 : SymbolTable) (h0 : SymbolTable.new .local [] (imports := none) = .ok T0) (tupleAsSexp : Bool)
    (k : Kind) (elems : List PyObj) (values : List Val) (hv : AreValues tupleAsSexp (argText T0.contents) elems values)
    (hsym : ∀ a ∈ symbolsInAll elems, GoodSym T0.symbols.length a) (hval : ∀ v ∈ valuesInAll elems, Expressible v)
    (hu : ∀ n ∈ values, ¬ SystemLike n) :
    ∃ doc, dumps none true tupleAsSexp (.seq k elems) = .ok doc ∧ ∃ objs, Mean objs values ∧ objs.length = elems.length ∧
      loadsBinary [] false doc = some (.ok objs) ∧
      loadsBinary [] true doc = some (if elems.length = 1 then .ok objs else .error .ionException) := by
  obtain ⟨doc, h1, objs, h2, h3, -, h4, h5⟩ := C12_dump_load_partial none [] (by simp) [] rfl (by simp) T0 h0 true tupleAsSexp (.seq k elems) values
    hv hsym hval hu
  have hlen : elems.length = values.length := by
    clear h1 h2 h3 h4 h5 hsym hval hu
    induction elems generalizing values with
    | nil => cases hv; rfl
    | cons o os ih => cases hv with | cons _ n _ ns _ h => simp [ih ns h]
  rw [hlen]
  exact ⟨doc, h1, objs, h2, h3, h4, h5⟩

/-! ## Examples -/

/-- `{'a': [1, True, None, 'b'], 'c': annotated symbol, 'a': 2.0}` (as an `IonPyDict`, a repeated key). -/
def sampleObj : PyObj :=
  .dict (.ion (some .struct) []) [
    (some (.text [97]), .seq (.plain .list) [.scalar (.plain .int) (.int 1), .scalar (.plain .bool) (.bool true), .none, .scalar (.plain .text) (.str [98])]),
    (some (.text [99]), .scalar (.ion (some .symbol) [.text [100], .tok ⟨none, some 0, none⟩]) (.sym ⟨some [101], none, none⟩)),
    (some (.text [97]), .scalar (.plain (.other [.int])) (.int (-7)))]

/-- The Ion value. -/
def sampleValue : Val :=
  .cont none [] .struct [
    .cont (some (some [97])) [] .list [.scalar none [] (.int 1), .scalar none [] (.bool true), .scalar none [] (.null .null), .scalar none [] (.string [98])],
    .scalar (some (some [99])) [some [100], none] (.symbol (some [101])),
    .scalar (some (some [97])) [] (.int (-7))]

theorem sample_is (t0 : Table) : IsValue false (argText t0) none sampleObj sampleValue := by
  refine .dict _ _ _ _ _ _ (.ion _ _) rfl ?_
  refine .cons _ (some [97]) _ _ _ _ (.text _ (.inl (by simp))) ?_ (.cons _ (some [99]) _ _ _ _ (.text _ (.inl (by simp))) ?_ (.cons _ (some [97]) _ _ _ _ (.text _ (.inl (by simp))) ?_ .nil))
  · refine .seq _ _ _ .list [] _ _ (.plain _ _ (by simp [Documented, nearest, CType.ty])) (by simp) rfl ?_
    refine .cons _ _ _ _ (.scalar _ _ _ .int [] _ _ (.plain _ _ (by simp [Documented, nearest])) rfl rfl) ?_
    refine .cons _ _ _ _ (.scalar _ _ _ .bool [] _ _ (.plain _ _ (by simp [Documented, nearest])) rfl rfl) ?_
    refine .cons _ _ _ _ (.none _) ?_
    exact .cons _ _ _ _ (.scalar _ _ _ .string [] _ _ (.plain _ _ (by simp [Documented, nearest])) rfl rfl) .nil
  · refine .scalar _ _ _ .symbol _ _ _ (.ion _ _) ?_ rfl
    simp [allSome, argText, find_eq]
  · exact .scalar _ _ _ .int [] _ _ (.plain _ _ (by simp [Documented, nearest, nearestAll])) rfl rfl

/-- Non-vacuity of C12 and C13. -/
example : ∃ T0, SymbolTable.new .local [] (imports := none) = .ok T0 ∧ IsValue false (argText T0.contents) none sampleObj sampleValue ∧
    (∀ a ∈ symbolsIn sampleObj, GoodSym T0.symbols.length a) ∧ (∀ v ∈ valuesIn sampleObj, Expressible v) ∧ ¬ SystemLike sampleValue := by
  obtain ⟨T0, h0, -⟩ := SymbolTable.new_local_spec [] none false
  refine ⟨T0, h0, sample_is _, ?_, ?_, by simp [sampleValue, SystemLike]⟩
  · intro a ha
    simp [symbolsIn, symbolsInAll, symbolsInItems, sampleObj, asSymbol] at ha
    rcases ha with rfl | rfl | rfl | rfl | rfl | rfl | rfl <;> simp [GoodSym, EncodableText]
  · intro v hv
    simp [valuesIn, valuesInAll, valuesInItems, sampleObj] at hv
    rcases hv with rfl | rfl | rfl | rfl | rfl <;> simp [Expressible, RegularVal, EncodableVal]

/-- **C13** (negative).  A symbol is a tuple: with `sequence_as_stream`, every symbol is written as the three values
its text as a string, its symbol ID and its location (here null), never as a symbol. -/
theorem C13_symbol_written_as_stream (c : Kind) (name : Text) (tupleAsSexp : Bool) :
    dump none true tupleAsSexp (.scalar c (.sym ⟨some name, none, none⟩)) =
      dump none true tupleAsSexp (.seq (.plain .list) [.scalar (.plain .text) (.str name), .none, .none]) ∧
    ∀ n : Nat, dump none true tupleAsSexp (.scalar c (.sym ⟨some name, some n, none⟩)) =
      dump none true tupleAsSexp (.seq (.plain .list) [.scalar (.plain .text) (.str name), .scalar (.plain .int) (.int n), .none]) :=
  ⟨rfl, fun _ => rfl⟩

end Ion.Simple

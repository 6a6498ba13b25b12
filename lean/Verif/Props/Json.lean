import Verif.JsonSpec
import Verif.Props.Multimap
import Verif.Props.Loading
set_option linter.unusedSimpArgs false
/-!
# Property C47: JSON down-conversion
-/
namespace Ion.Json
open Ion Ion.Spec Ion.Simple Ion.Simple.Spec Ion.Json.Spec

theorem notFinite_iff (bits : UInt64) : notFinite bits = true ↔ ¬ finite bits := by
  simp only [notFinite, TextWriter.isNan, TextWriter.isInf, finite, Bool.or_eq_true, Bool.and_eq_true, decide_eq_true_eq]
  omega

theorem byteNums_lt (b : Bytes) : ∀ x ∈ TextWriter.byteNums b, x < 256 := by
  intro x hx
  simp only [TextWriter.byteNums, List.mem_map] at hx
  obtain ⟨y, _, rfl⟩ := hx
  exact y.toNat_lt

theorem scalar_json (P : Lib) {ty : IonType} {v : PyVal} {x : Scalar (Option Text)} (hn : nativeScalar ty v)
    (h : scalarOf seenText ty v = some x) : ∃ j, scalarDefault P ty v = .ok j ∧ ScalarJson P x j := by
  by_cases hs : ty = .symbol
  · subst hs
    cases v <;> simp only [nativeScalar] at hn
    case sym k =>
      simp only [scalarOf, if_true, asSymbol, seenText, Option.bind_some, Option.map_some, Option.some.injEq] at h
      subst h
      cases hk : k.text with
      | none => exact ⟨.null, by simp [scalarDefault, hk], .unknownSymbol⟩
      | some t => exact ⟨.str t, by simp [scalarDefault, hk], .symbol t⟩
  · simp only [scalarOf, hs, if_false] at h
    cases ty <;> cases v <;> simp only [denote, Option.some.injEq, reduceCtorEq] at h
    case bool.int i =>
      subst h
      have : (decide (i ≠ 0)) = decide (i = 1) := by rcases hn with rfl | rfl <;> rfl
      rw [this]
      exact ⟨_, rfl, .bool _⟩
    case float.float bits =>
      subst h
      by_cases hf : notFinite bits
      · exact ⟨.null, by simp [scalarDefault, hf], .notFinite _ ((notFinite_iff bits).1 hf)⟩
      · exact ⟨.float bits, by simp [scalarDefault, hf], .float _ (Classical.not_not.1 (fun h => hf ((notFinite_iff bits).2 h)))⟩
    case blob.bytes b =>
      subst h
      refine ⟨.str (Base64.encode (b.map UInt8.toNat)), ?_, .blob b⟩
      simp only [scalarDefault, Base64.encode_eq _ (byteNums_lt b)]
      rfl
    all_goals
      first
      | (subst h; exact ⟨_, rfl, by constructor⟩)
      | exact absurd rfl hs

/-! ## Structs -/

/-- The key of a field name. -/
def keyOf (name : Option Text) : Option SymArg := name.map .text

theorem keyOf_inj {a b : Option Text} (h : keyOf a = keyOf b) : a = b := by
  cases a <;> cases b <;> simp_all [keyOf]

theorem keyText_keyOf (a : Option Text) : keyText (keyOf a) = .ok a := by cases a <;> rfl

/-- An item of the dictionary, with what becomes of it, and a field of the struct. -/
def Fits (P : Lib) (p : Option SymArg × Except PyErr Json) (n : Val) : Prop :=
  ∃ name j, p.1 = keyOf name ∧ n.field = some name ∧ p.2 = .ok j ∧ IsJson P n j

theorem fits_keys {P : Lib} {l : List (Option SymArg × Except PyErr Json)} {ns : List Val} (h : List.Forall₂ (Fits P) l ns) :
    l.map (·.1) = (ns.filterMap Node.field).map keyOf := by
  induction h with
  | nil => rfl
  | cons h1 _ ih =>
    obtain ⟨name, j, h1, h2, _, _⟩ := h1
    simp [h1, h2, ih]

theorem fits_newest {P : Lib} {l : List (Option SymArg × Except PyErr Json)} {ns : List Val} (h : List.Forall₂ (Fits P) l ns)
    (name : Option Text) : List.Forall₂ (fun r n => ∃ j, r = .ok j ∧ IsJson P n j) (MM.Spec.vals l (keyOf name))
      (ns.filter fun n => n.field = some name) := by
  induction h with
  | nil => exact .nil
  | @cons p n l ns h1 _ ih =>
    obtain ⟨name', j, h1, h2, h3, h4⟩ := h1
    by_cases hn : name' = name
    · subst hn
      simp only [MM.Spec.vals, List.filter_cons, h1, h2, decide_true, if_true, List.map_cons] at ih ⊢
      exact .cons ⟨j, h3, h4⟩ ih
    · have : ¬ keyOf name' = keyOf name := fun hh => hn (keyOf_inj hh)
      have h5 : ¬ some name' = some name := fun hh => hn (Option.some.inj hh)
      simp only [MM.Spec.vals, List.filter_cons, h1, h2, this, h5, decide_false, Bool.false_eq_true, if_false] at ih ⊢
      exact ih

theorem forall₂_getLast {α β : Type} {R : α → β → Prop} {l : List α} {m : List β} (h : List.Forall₂ R l m) (hl : l ≠ []) :
    ∃ a b, l[l.length - 1]? = some a ∧ m.getLast? = some b ∧ R a b := by
  induction h with
  | nil => exact absurd rfl hl
  | @cons a b l m h1 h2 ih =>
    cases h2 with
    | nil => exact ⟨a, b, rfl, rfl, h1⟩
    | cons h3 h4 =>
      obtain ⟨a', b', i1, i2, i3⟩ := ih (by simp)
      refine ⟨a', b', ?_, ?_, i3⟩
      · simpa using i1
      · simpa [List.getLast?_cons_cons] using i2

theorem rel_add {l : List (Option SymArg × Except PyErr Json)} :
    ∀ (pre : List (Option SymArg × Except PyErr Json)) (m : Multimap (Option SymArg) (Except PyErr Json)), MM.Rel m pre →
    MM.Rel (l.foldl (fun m p => Multimap.addItem m p.1 p.2) m) (pre ++ l) := by
  induction l with
  | nil => intro pre m h; simpa using h
  | cons p l ih =>
    intro pre m h
    obtain ⟨k, v⟩ := p
    have := (MM.rel_step h (.add k v)).2
    simpa [MM.step] using ih (pre ++ [(k, v)]) _ this

theorem collect_json {P : Lib} {l : List (Option SymArg × Except PyErr Json)} {ns : List Val} (h : List.Forall₂ (Fits P) l ns)
    {m : Multimap (Option SymArg) (Except PyErr Json)} (hm : MM.Rel m l) (ks : List (Option Text)) :
    (∀ k ∈ ks, k ∈ ns.filterMap Node.field) →
    ∃ kept js, kept.map some = ks.map (newest · ns) ∧ AreJson P kept js ∧ collect m (ks.map keyOf) = .ok (ks.zip js) := by
  induction ks with
  | nil => intro _; exact ⟨[], [], rfl, .nil, rfl⟩
  | cons k ks ih =>
    intro hk
    obtain ⟨kept, js, i1, i2, i3⟩ := ih (fun k' h' => hk k' (by simp [h']))
    have hmem : keyOf k ∈ MM.Spec.firstKeys l := by
      have : keyOf k ∈ l.map (·.1) := by
        rw [fits_keys h]
        exact List.mem_map_of_mem (hk k (by simp))
      have hh : ∀ {l : List (Option SymArg × Except PyErr Json)} {k}, k ∈ l.map (·.1) → k ∈ MM.Spec.firstKeys l := by
        intro l
        induction l with
        | nil => simp
        | cons p l ih =>
          intro k hk
          obtain ⟨k', v⟩ := p
          by_cases e : k = k'
          · simp [MM.Spec.firstKeys, e]
          · simp only [List.map_cons, List.mem_cons, e, false_or] at hk
            have := ih hk
            simp [MM.Spec.firstKeys, e, this]
      exact hh this
    have hne : MM.Spec.vals l (keyOf k) ≠ [] := fun hh => (MM.vals_nil_iff l (keyOf k)).1 hh hmem
    obtain ⟨r, n, g1, g2, j, g3, g4⟩ := forall₂_getLast (fits_newest h k) hne
    have hget : Multimap.getItem m (keyOf k) = .ok (.ok j) := by
      simp only [Multimap.getItem, hm.vals _ hmem, g1, g3]
    refine ⟨n :: kept, j :: js, ?_, .cons _ _ _ _ g4 i2, ?_⟩
    · simp only [List.map_cons, i1, newest, g2]
    · simp only [List.map_cons, collect, keyText_keyOf, hget, i3, List.zip_cons_cons]

theorem struct_json {P : Lib} {l : List (Option SymArg × Except PyErr Json)} {ns : List Val} (h : List.Forall₂ (Fits P) l ns)
    (f : Option (Option Text)) (a : List (Option Text)) :
    ∃ kvs, collect (l.foldl (fun m p => Multimap.addItem m p.1 p.2) []) (PyDict.keys (l.foldl (fun m p => Multimap.addItem m p.1 p.2) [])) = .ok kvs ∧
      IsJson P (.cont f a .struct ns) (.dict kvs) := by
  have hm := rel_add (l := l) [] [] MM.rel_empty
  simp only [List.nil_append] at hm
  have hkeys : MM.Spec.firstKeys l = (names ns).map keyOf := by
    rw [firstKeys_eq, fits_keys h, firsts_map _ (fun _ _ => keyOf_inj), names]
  obtain ⟨kept, js, h1, h2, h3⟩ := collect_json h hm (names ns) (by
    have : ∀ (l : List (Option Text)), ∀ k ∈ firsts l, k ∈ l := by
      intro l
      induction l with
      | nil => simp [firsts]
      | cons b l ih =>
        intro k hk
        simp only [firsts, List.mem_cons, List.mem_filter] at hk ⊢
        exact hk.imp id (fun h => ih k h.1)
    exact this _)
  refine ⟨_, ?_, .struct f a ns kept js h1 h2⟩
  rw [hm.keys, hkeys, h3]

/-! ## All values -/

theorem field_of {b : Bool} {f : Option (Option Text)} {o : PyObj} {n : Val} (h : IsValue b seenText f o n) : n.field = f := by
  cases h <;> rfl

/-- The conversion of what stands for an Ion value is the JSON of that value: structure and order are kept, nulls and floats
that are not finite become null, and the newest of several fields with the same name is kept. -/
theorem C47_json (P : Lib) {b : Bool} {f : Option (Option Text)} {o : PyObj} {n : Val} (h : IsValue b seenText f o n)
    (hn : Native o) : ∃ j, default P o = .ok j ∧ IsJson P n j := by
  revert hn
  refine IsValue.rec (motive_1 := fun f o n _ => Native o → ∃ j, default P o = .ok j ∧ IsJson P n j)
    (motive_2 := fun os ns _ => NativeAll os → ∃ js, defaultAll P os = .ok js ∧ AreJson P ns js)
    (motive_3 := fun items ns _ => NativeItems items → List.Forall₂ (Fits P) (itemResults P items) ns)
    ?_ ?_ ?_ ?_ ?_ ?_ ?_ ?_ ?_ h
  · intro f hn; exact absurd hn id
  · intro f ty ann a _ _; exact ⟨.null, rfl, .scalar _ _ _ _ (.null _)⟩
  · intro f k v ty ann a x ht _ hx hn
    cases ht with
    | plain => exact absurd hn id
    | ion =>
      obtain ⟨j, h1, h2⟩ := scalar_json P hn hx
      exact ⟨j, h1, .scalar _ _ _ _ h2⟩
  · intro f k elems ty ann a ns ht hty _ _ ih hn
    cases ht with
    | plain => exact absurd hn id
    | ion =>
      obtain ⟨js, h1, h2⟩ := ih hn
      refine ⟨.list js, ?_, .seq _ _ _ _ _ hty h2⟩
      have : ty.ty = .list ∨ ty.ty = .sexp := by cases ty <;> simp [CType.ty] at hty ⊢
      simp only [default, this, if_true, h1]
  · intro f k items ann a ns ht _ _ ih hn
    cases ht with
    | plain => exact absurd hn id
    | ion =>
      obtain ⟨kvs, h1, h2⟩ := struct_json (ih hn) f a
      exact ⟨.dict kvs, by simp only [default, if_true, h1], h2⟩
  · intro _; exact ⟨[], rfl, .nil⟩
  · intro o n os ns _ _ ih1 ih2 hn
    obtain ⟨j, h1, h2⟩ := ih1 hn.1
    obtain ⟨js, h3, h4⟩ := ih2 hn.2
    exact ⟨j :: js, by simp only [defaultAll, h1, h3], .cons _ _ _ _ h2 h4⟩
  · intro _; exact .nil
  · intro key name o n items ns hk hv _ ih1 ih2 hn
    obtain ⟨hk1, hn1, hn2⟩ := hn
    obtain ⟨j, h1, h2⟩ := ih1 hn1
    refine .cons ⟨name, j, ?_, field_of hv, h1, h2⟩ (ih2 hn2)
    cases hk with
    | text t _ => rfl
    | token k _ _ => exact absurd rfl (hk1 k)
    | unknown _ => rfl

/-! ## What `load` returns -/

theorem fields_of_name (xs : List Val) (k : Option Text) :
    (xs.filter fun n => n.field = some k).filterMap Node.field = List.replicate (xs.filter fun n => n.field = some k).length k := by
  induction xs with
  | nil => rfl
  | cons x xs ihx =>
    by_cases e : x.field = some k
    · simp [List.filter_cons, e, ihx, List.replicate_succ]
    · simp [List.filter_cons, e, ihx]

theorem firsts_grouped (xs : List Val) : names (grouped xs) = names xs := by
  have key : ∀ (ks : List (Option Text)), (∀ k ∈ ks, k ∈ xs.filterMap Node.field) → ks.Nodup →
      firsts ((ks.flatMap fun name => xs.filter fun n => n.field = some name).filterMap Node.field) = ks := by
    intro ks
    induction ks with
    | nil => intro _ _; rfl
    | cons k ks ih =>
      intro hk hn
      rw [List.nodup_cons] at hn
      have ih := ih (fun k' h' => hk k' (by simp [h'])) hn.2
      simp only [List.flatMap_cons, List.filterMap_append]
      have hone : (xs.filter fun n => n.field = some k).filterMap Node.field = List.replicate (xs.filter fun n => n.field = some k).length k := fields_of_name xs k
      have hpos : (xs.filter fun n => n.field = some k).length ≠ 0 := by
        obtain ⟨x, hx1, hx2⟩ := List.mem_filterMap.1 (hk k (by simp))
        intro h0
        have := List.length_eq_zero_iff.1 h0
        have : x ∈ xs.filter fun n => n.field = some k := List.mem_filter.2 ⟨hx1, by simp [hx2]⟩
        simp_all
      rw [hone]
      have hrep : ∀ (n : Nat) (l : List (Option Text)), n ≠ 0 → k ∉ l → firsts (List.replicate n k ++ l) = k :: firsts l := by
        intro n
        have hfilter : ∀ l : List (Option Text), k ∉ l → (firsts l).filter (· ≠ k) = firsts l := by
          intro l hl
          apply List.filter_eq_self.2
          intro a ha
          have : ∀ (l : List (Option Text)), ∀ a ∈ firsts l, a ∈ l := by
            intro l
            induction l with
            | nil => simp [firsts]
            | cons b l ihl =>
              intro a ha
              simp only [firsts, List.mem_cons, List.mem_filter] at ha ⊢
              exact ha.imp id (fun h => ihl a h.1)
          have := this l a ha
          simp only [decide_not, Bool.not_eq_eq_eq_not, Bool.not_true, decide_eq_false_iff_not]
          rintro rfl
          exact hl this
        induction n with
        | zero => intro l h0; exact absurd rfl h0
        | succ n ihn =>
          intro l _ hl
          rw [List.replicate_succ, List.cons_append, firsts]
          cases n with
          | zero => simp only [List.replicate_zero, List.nil_append, hfilter l hl]
          | succ n =>
            rw [ihn l (by simp) hl]
            simp only [List.filter_cons, ne_eq, not_true_eq_false, decide_false, Bool.false_eq_true, if_false]
            exact congrArg _ (hfilter l hl)
      rw [hrep _ _ hpos, ih]
      intro hmem
      simp only [List.mem_filterMap, List.mem_flatMap, List.mem_filter, decide_eq_true_eq] at hmem
      obtain ⟨x, ⟨k', hk', _, h1⟩, h2⟩ := hmem
      rw [h1] at h2
      cases h2
      exact hn.1 hk'
  refine key _ ?_ ?_
  · have : ∀ (l : List (Option Text)), ∀ k ∈ firsts l, k ∈ l := by
      intro l
      induction l with
      | nil => simp [firsts]
      | cons b l ih =>
        intro k hk
        simp only [firsts, List.mem_cons, List.mem_filter] at hk ⊢
        exact hk.imp id (fun h => ih k h.1)
    exact this _
  · have : ∀ (l : List (Option Text)), (firsts l).Nodup := by
      intro l
      induction l with
      | nil => simp [firsts]
      | cons a l ih => simp only [firsts, List.nodup_cons]; exact ⟨by simp, ih.filter _⟩
    exact this _

theorem filter_grouped (xs : List Val) (name : Option Text) :
    ((grouped xs).filter fun n => n.field = some name) = xs.filter fun n => n.field = some name := by
  have key : ∀ (ks : List (Option Text)), ks.Nodup →
      ((ks.flatMap fun k => xs.filter fun n => n.field = some k).filter fun n => n.field = some name) =
        if name ∈ ks then xs.filter (fun n => n.field = some name) else [] := by
    intro ks
    induction ks with
    | nil => intro _; rfl
    | cons k ks ih =>
      intro hn
      rw [List.nodup_cons] at hn
      rw [List.flatMap_cons, List.filter_append, ih hn.2, List.filter_filter]
      by_cases e : name = k
      · subst e
        simp only [hn.1, if_false, List.append_nil, List.mem_cons, true_or, if_true, Bool.and_self]
      · have : (xs.filter fun n => decide (n.field = some name) && decide (n.field = some k)) = [] := by
          rw [List.filter_eq_nil_iff]
          intro x _ hx
          simp only [Bool.and_eq_true, decide_eq_true_eq] at hx
          rw [hx.1] at hx
          exact e (Option.some.inj hx.2)
        rw [this]
        simp [e]
  have hnd : ∀ (l : List (Option Text)), (firsts l).Nodup := by
    intro l
    induction l with
    | nil => simp [firsts]
    | cons a l ih => simp only [firsts, List.nodup_cons]; exact ⟨by simp, ih.filter _⟩
  rw [grouped, key _ (hnd _)]
  split
  · rfl
  · rename_i hno
    symm
    rw [List.filter_eq_nil_iff]
    intro x hx he
    simp only [decide_eq_true_eq] at he
    apply hno
    have hf : ∀ (l : List (Option Text)) (a : Option Text), a ∈ l → a ∈ firsts l := by
      intro l
      induction l with
      | nil => simp
      | cons b l ih =>
        intro a ha
        by_cases e : a = b
        · simp [firsts, e]
        · have := ih a (by simpa [e] using ha)
          simp [firsts, e, this]
    exact hf _ _ (List.mem_filterMap.2 ⟨x, hx, he⟩)

theorem newest_related {R : Val → Val → Prop} {xs ys : List Val} (h : List.Forall₂ (fun x y => x.field = y.field ∧ R x y) xs ys)
    (name : Option Text) : List.Forall₂ R (xs.filter fun n => n.field = some name) (ys.filter fun n => n.field = some name) := by
  induction h with
  | nil => exact .nil
  | @cons x y xs ys h1 _ ih =>
    obtain ⟨hf, h1⟩ := h1
    by_cases e : y.field = some name
    · simp only [List.filter_cons, hf, e, decide_true, if_true]; exact .cons h1 ih
    · simp only [List.filter_cons, hf, e, decide_false, Bool.false_eq_true, if_false]; exact ih

theorem forall₂_last {α β : Type} {R : α → β → Prop} {l : List α} {m : List β} (h : List.Forall₂ R l m) {b : β}
    (hb : m.getLast? = some b) : ∃ a, l.getLast? = some a ∧ R a b := by
  induction h with
  | nil => cases hb
  | @cons a b' l m h1 h2 ih =>
    cases h2 with
    | nil => cases hb; exact ⟨a, rfl, h1⟩
    | cons h3 h4 =>
      rw [List.getLast?_cons_cons] at hb ⊢
      exact ih hb

/-- JSON does not depend on how the fields of structs are grouped. -/
theorem kept_json {P : Lib} {x y : Val} (h : Kept x y) : ∀ j, IsJson P y j → IsJson P x j := by
  refine (Kept.rec (motive_1 := fun x y _ => x.field = y.field ∧ ∀ j, IsJson P y j → IsJson P x j)
    (motive_2 := fun xs ys _ => List.Forall₂ (fun x y => x.field = y.field ∧ ∀ j, IsJson P y j → IsJson P x j) xs ys)
    ?_ ?_ ?_ ?_ ?_ h).2
  · intro f a x; exact ⟨rfl, fun j hj => hj⟩
  · intro f a ty xs ys hty hka ih
    clear hka
    refine ⟨rfl, fun j hj => ?_⟩
    cases hj with
    | struct => exact absurd rfl hty
    | seq _ _ _ _ js _ hj =>
      refine .seq _ _ _ _ _ hty ?_
      clear hty
      induction ih generalizing js with
      | nil => cases hj; exact .nil
      | cons h1 _ ih =>
        cases hj with
        | cons _ j _ js h2 h3 => exact .cons _ _ _ _ (h1.2 _ h2) (ih _ h3)
  · intro f a xs ys hka hns ih
    clear hka hns
    refine ⟨rfl, fun j hj => ?_⟩
    cases hj with
    | seq _ _ _ _ _ hty => exact absurd rfl hty
    | struct _ _ _ kept js hk hj =>
      have hfs : xs.filterMap Node.field = ys.filterMap Node.field := by
        clear hk
        induction ih with
        | nil => rfl
        | cons h1 _ ih => simp [List.filterMap_cons, h1.1, ih]
      have hnames : names xs = names ys := by rw [names, names, hfs]
      rw [firsts_grouped] at hk ⊢
      have hnew : ∀ k, newest k (grouped ys) = newest k ys := fun k => by rw [newest, newest, filter_grouped]
      simp only [hnew] at hk
      rw [← hnames] at hk ⊢
      have key : ∀ (ks : List (Option Text)) (kept : List Val) (js : List Json), kept.map some = ks.map (newest · ys) → AreJson P kept js →
          ∃ kept', kept'.map some = ks.map (newest · xs) ∧ AreJson P kept' js := by
        intro ks
        induction ks with
        | nil =>
          intro kept js h1 h2
          cases kept with
          | nil => exact ⟨[], rfl, h2⟩
          | cons => simp at h1
        | cons k ks ihk =>
          intro kept js h1 h2
          cases kept with
          | nil => simp at h1
          | cons y kept =>
            simp only [List.map_cons, List.cons.injEq] at h1
            cases h2 with
            | cons _ j _ js h2 h3 =>
              obtain ⟨kept', k1, k2⟩ := ihk kept js h1.2 h3
              obtain ⟨x, x1, x2⟩ := forall₂_last (newest_related ih k) h1.1.symm
              exact ⟨x :: kept', by simp only [List.map_cons, k1, newest, x1], .cons _ _ _ _ (x2 _ h2) k2⟩
      obtain ⟨kept', k1, k2⟩ := key _ _ _ hk hj
      exact .struct _ _ _ kept' _ k1 k2
  · exact .nil
  · intro x y xs ys _ _ h1 h2; exact .cons h1 h2

/-- What `load` returns for values is converted to the JSON of these values (see `C13_load_document` for the values of a
document, where `Mean` is the relation between the objects and the values). -/
theorem C47_loaded (P : Lib) {objs : List PyObj} {values : List Val} (h : Mean objs values) :
    ∃ js, defaultAll P objs = .ok js ∧ AreJson P values js := by
  obtain ⟨hn, hv⟩ := h
  obtain ⟨ns, h1, h2⟩ := hv false
  clear hv
  induction objs generalizing values ns with
  | nil =>
    cases h1
    cases h2
    exact ⟨[], rfl, .nil⟩
  | cons o os ih =>
    cases h1 with
    | cons _ n _ ns h1 h3 =>
    cases h2 with
    | cons v _ values _ h2 h4 =>
      obtain ⟨j, j1, j2⟩ := C47_json P h1 (hn o (by simp))
      obtain ⟨js, k1, k2⟩ := ih (fun o ho => hn o (by simp [ho])) ns h3 h4
      exact ⟨j :: js, by simp only [defaultAll, j1, k1], .cons _ _ _ _ (kept_json h2 j j2) k2⟩

/-! ## Examples -/

/-- A library for examples. -/
def sampleLib : Lib := ⟨fun _ => 0, fun _ => []⟩

/-- `{a: 1, b: [+inf, {{YQ==}}, null.int, $0], a: true}`. -/
def sampleValue : Val :=
  .cont none [some [120]] .struct [.scalar (some (some [97])) [] (.int 1),
    .cont (some (some [98])) [] .list [.scalar none [] (.float 0x7FF0000000000000), .scalar none [] (.blob [97]), .scalar none [] (.null .int),
      .scalar none [] (.symbol none)],
    .scalar (some (some [97])) [] (.bool true)]

/-- Its JSON: `{"a": true, "b": [null, "YQ==", null, null]}`. -/
def sampleJson : Json :=
  .dict [(some [97], .bool true), (some [98], .list [.null, .str [89, 81, 61, 61], .null, .null])]

example : IsJson sampleLib sampleValue sampleJson := by
  refine IsJson.struct _ _ _ [.scalar (some (some [97])) [] (.bool true), .cont (some (some [98])) [] .list
    [.scalar none [] (.float 0x7FF0000000000000), .scalar none [] (.blob [97]), .scalar none [] (.null .int), .scalar none [] (.symbol none)]]
    [.bool true, .list [.null, .str [89, 81, 61, 61], .null, .null]] ?_ ?_
  · simp [names, newest, firsts, Node.field]
  · refine .cons _ _ _ _ (.scalar _ _ _ _ (.bool _)) (.cons _ _ _ _ ?_ .nil)
    refine .seq _ _ _ _ _ (by simp) ?_
    exact .cons _ _ _ _ (.scalar _ _ _ _ (.notFinite _ (by unfold finite; decide +kernel))) (.cons _ _ _ _ (.scalar _ _ _ _ (.blob [97]))
      (.cons _ _ _ _ (.scalar _ _ _ _ (.null _)) (.cons _ _ _ _ (.scalar _ _ _ _ .unknownSymbol) .nil)))

/-- The hypotheses of `C47_json`: an object for this value. -/
def sampleObj : PyObj :=
  .dict (.ion (some .struct) [.text [120]]) [(some (.text [97]), .scalar (.ion (some .int) []) (.int 1)),
    (some (.text [98]), .seq (.ion (some .list) []) [.scalar (.ion (some .float) []) (.float 0x7FF0000000000000),
      .scalar (.ion (some .blob) []) (.bytes [97]), .null (some .int) [], .scalar (.ion (some .symbol) []) (.sym ⟨none, some 0, none⟩)]),
    (some (.text [97]), .scalar (.ion (some .bool) []) (.int 1))]

example : IsValue false seenText none sampleObj sampleValue ∧ Native sampleObj := by
  refine ⟨.dict _ _ _ _ _ _ (.ion _ _) rfl ?_, by simp [Native, NativeItems, NativeAll, sampleObj, nativeScalar]⟩
  refine .cons _ (some [97]) _ _ _ _ (.text _ (.inl (by simp))) (.scalar _ _ _ _ _ _ _ (.ion _ _) rfl rfl) (.cons _ (some [98]) _ _ _ _ (.text _ (.inl (by simp))) ?_
    (.cons _ (some [97]) _ _ _ _ (.text _ (.inl (by simp))) (.scalar _ _ _ _ _ _ _ (.ion _ _) rfl rfl) .nil))
  refine .seq _ _ _ .list _ _ _ (.ion _ _) (by simp) rfl ?_
  exact .cons _ _ _ _ (.scalar _ _ _ _ _ _ _ (.ion _ _) rfl rfl) (.cons _ _ _ _ (.scalar _ _ _ _ _ _ _ (.ion _ _) rfl rfl)
    (.cons _ _ _ _ (.null _ _ _ _ rfl) (.cons _ _ _ _ (.scalar _ _ _ _ _ _ _ (.ion _ _) rfl rfl) .nil)))

/-- **C47** (negative).  A decimal beyond the range of floats, for which `float` gives an infinity, is not converted to null
but to that infinity, which JSON cannot express. -/
theorem C47_decimal_overflow (P : Lib) (d : Dec) (bits : UInt64) (h : P.floatOf d = bits) (hb : ¬ finite bits) :
    default P (.scalar (.ion (some .decimal) []) (.decimal d)) = .ok (.float bits) ∧
      default P (.scalar (.ion (some .float) []) (.float bits)) = .ok .null := by
  refine ⟨by simp [default, scalarDefault, h], ?_⟩
  simp [default, scalarDefault, (notFinite_iff bits).2 hb]

end Ion.Json

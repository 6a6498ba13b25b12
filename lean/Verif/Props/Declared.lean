import Verif.Declared
/-!
# C69, C70: enumerations and records are what their declarations say
-/
namespace Ion.Declared
open Ion

/-! ## The independent specification -/

/-- What the body of an enumeration declares: its public names that are bound to numbers, in order. -/
def declared : List (Text × Attr) → List Member
  | [] => []
  | (name, .int n) :: rest => if isPrivate name then declared rest else ⟨name, n⟩ :: declared rest
  | _ :: rest => declared rest

/-- Everything public is a number or a method. -/
def OnlyNumbers (body : List (Text × Attr)) : Prop :=
  ∀ name a, (name, a) ∈ body → isPrivate name = false → a = .method ∨ ∃ n, a = .int n

/-- The name of a declared field. -/
def Decl.name? : Decl ν → Option Text
  | .plain n => some n
  | .pair n _ => some n
  | .other => none

/-- The default of a declared field. -/
def Decl.default? : Decl ν → Option ν
  | .pair _ v => some v
  | _ => none

/-- The fields `vs` of a record with the declared fields, from arguments by position and by name: each field has the value
given for it, by position or by name but not both, and otherwise the default declared with it. -/
inductive Filled (kw : PyDict Text ν) : List (Decl ν) → List ν → List ν → Prop
  | nil : Filled kw [] [] []
  | given {d ds a args vs n} : d.name? = some n → PyDict.get kw n = none → Filled kw ds args vs →
      Filled kw (d :: ds) (a :: args) (a :: vs)
  | named {d ds v vs n} : d.name? = some n → PyDict.get kw n = some v → Filled kw ds [] vs →
      Filled kw (d :: ds) [] (v :: vs)
  | default {d ds v vs n} : d.name? = some n → PyDict.get kw n = none → d.default? = some v → Filled kw ds [] vs →
      Filled kw (d :: ds) [] (v :: vs)

/-- Names, and then pairs. -/
def DefaultsLast (decls : List (Decl ν)) : Prop :=
  ∃ (names : List Text) (pairs : List (Text × ν)), decls = names.map .plain ++ pairs.map fun p => .pair p.1 p.2

/-! ## Enumerations -/

/-- The numbers `bindMembers` binds. -/
private theorem bind_eq (c : EnumClass) (body : List (Text × Attr)) (h : OnlyNumbers body) :
    bindMembers c body = .ok ⟨(declared body).foldl (fun d m => PyDict.set d m.name m) c.attributes,
      (declared body).foldl (fun d m => PyDict.set d m.value m) c.members⟩ := by
  induction body generalizing c with
  | nil => rfl
  | cons p rest ih =>
    obtain ⟨name, a⟩ := p
    have hr : OnlyNumbers rest := fun n a hm => h n a (List.mem_cons_of_mem _ hm)
    unfold bindMembers
    cases hp : isPrivate name
    · rcases h name a (by simp) hp with rfl | ⟨n, rfl⟩
      · simpa [hp, declared] using ih c hr
      · simp [hp, declared, ih _ hr]
    · cases a <;> simp [hp, declared, ih c hr]

private theorem bind_error (c : EnumClass) (body : List (Text × Attr)) (h : ¬ OnlyNumbers body) :
    bindMembers c body = .error .typeError := by
  induction body generalizing c with
  | nil => exact absurd (fun _ _ hm => by simp at hm) h
  | cons p rest ih =>
    obtain ⟨name, a⟩ := p
    unfold bindMembers
    by_cases hh : isPrivate name = true ∨ a = .method
    · rw [if_pos (by simpa using hh)]
      refine ih c fun hr => h fun n b hm hb => ?_
      rcases List.mem_cons.mp hm with heq | hm
      · cases heq
        rcases hh with hh | hh
        · simp [hh] at hb
        · exact .inl hh
      · exact hr n b hm hb
    · rw [if_neg (by simpa using hh)]
      cases a with
      | method => simp at hh
      | other => rfl
      | int n =>
        refine ih _ fun hr => h fun k b hm hb => ?_
        rcases List.mem_cons.mp hm with heq | hm
        · cases heq; exact .inr ⟨n, rfl⟩
        · exact hr k b hm hb

/-- C69: an enumeration can be declared exactly when everything public in its body is a number or a method; otherwise the
declaration raises `TypeError`. -/
theorem C69_enumeration_declared (body : List (Text × Attr)) :
    ((∃ c, enumClass body = .ok c) ↔ OnlyNumbers body) ∧ (¬ OnlyNumbers body → enumClass body = .error .typeError) := by
  refine ⟨⟨fun ⟨c, hc⟩ => ?_, fun h => ⟨_, bind_eq _ body h⟩⟩, bind_error _ body⟩
  refine Classical.byContradiction fun h => ?_
  rw [enumClass, bind_error _ body h] at hc
  cases hc

/-- The last entry of a list with a key is what a dictionary filled from the list has. -/
private theorem get_foldl {κ : Type} [DecidableEq κ] (f : Member → κ) (l : List Member) (d : PyDict κ Member) (k : κ) :
    PyDict.get (l.foldl (fun d m => PyDict.set d (f m) m) d) k =
      ((l.reverse.find? fun m => f m = k).or (PyDict.get d k)) := by
  induction l generalizing d with
  | nil => simp
  | cons m l ih =>
    rw [List.foldl_cons, ih, List.reverse_cons, List.find?_append, PyDict.get_set]
    cases l.reverse.find? (fun m => f m = k) <;> simp [List.find?]
    by_cases h : f m = k
    · simp [h]
    · simp [h, Ne.symm h]

/-- C69: `E[n]` is the last member declared with the number, and `KeyError` if there is none. -/
theorem C69_lookup (body : List (Text × Attr)) (c : EnumClass) (h : enumClass body = .ok c) (n : Int) :
    c.lookup n = (match (declared body).reverse.find? fun m => m.value = n with
      | some m => .ok m
      | none => .error .keyError) := by
  have ho := (C69_enumeration_declared body).1.mp ⟨c, h⟩
  rw [enumClass, bind_eq _ body ho] at h
  cases h
  simp only [EnumClass.lookup, get_foldl (fun m => m.value)]
  cases (declared body).reverse.find? (fun m => m.value = n) <;> rfl

private theorem set_new {κ : Type} [DecidableEq κ] (d : PyDict κ Member) (k : κ) (m : Member) (h : k ∉ PyDict.keys d) :
    PyDict.set d k m = d ++ [(k, m)] := by
  induction d with
  | nil => rfl
  | cons p d ih =>
    obtain ⟨k', m'⟩ := p
    have h1 : k' ≠ k := fun e => h (by simp [PyDict.keys, e])
    have h2 : k ∉ PyDict.keys d := fun e => h (by simp only [PyDict.keys, List.map_cons]; exact List.mem_cons_of_mem _ e)
    simp [PyDict.set, h1, ih h2]

private theorem foldl_new {κ : Type} [DecidableEq κ] (f : Member → κ) (l : List Member) (d : PyDict κ Member)
    (h : (PyDict.keys d ++ l.map f).Nodup) :
    l.foldl (fun d m => PyDict.set d (f m) m) d = d ++ l.map fun m => (f m, m) := by
  induction l generalizing d with
  | nil => simp
  | cons m l ih =>
    have h1 : f m ∉ PyDict.keys d := by
      intro hm
      rw [List.nodup_append] at h
      exact h.2.2 _ hm (f m) (by simp) rfl
    rw [List.foldl_cons, set_new d _ m h1, ih]
    · simp
    · simpa [PyDict.keys] using h

/-- C69: iterating over an enumeration whose numbers differ gives the declared members, each once, in order. -/
theorem C69_iteration (body : List (Text × Attr)) (c : EnumClass) (h : enumClass body = .ok c)
    (hv : ((declared body).map (·.value)).Nodup) : c.iter = declared body := by
  have ho := (C69_enumeration_declared body).1.mp ⟨c, h⟩
  rw [enumClass, bind_eq _ body ho] at h
  cases h
  rw [EnumClass.iter]
  simp only
  rw [foldl_new (fun m => m.value) _ _ (by simpa [PyDict.keys] using hv)]
  simp [Function.comp_def]

private theorem keys_set {κ : Type} [DecidableEq κ] (d : PyDict κ Member) (k : κ) (m : Member)
    (h : (PyDict.keys d).Nodup) : (PyDict.keys (PyDict.set d k m)).Nodup ∧ ∀ x, x ∈ PyDict.keys (PyDict.set d k m) ↔ x = k ∨ x ∈ PyDict.keys d := by
  induction d with
  | nil => simp [PyDict.set, PyDict.keys]
  | cons p d ih =>
    obtain ⟨k', m'⟩ := p
    rw [PyDict.keys, List.map_cons, List.nodup_cons] at h
    obtain ⟨ih1, ih2⟩ := ih h.2
    by_cases e : k' = k
    · subst e
      simp only [PyDict.set, if_true]
      refine ⟨by rw [PyDict.keys, List.map_cons, List.nodup_cons]; exact h, fun x => by simp [PyDict.keys]⟩
    · simp only [PyDict.set, if_neg e]
      refine ⟨?_, fun x => ?_⟩
      · rw [PyDict.keys, List.map_cons, List.nodup_cons]
        exact ⟨fun hm => ((ih2 k').mp hm).elim e h.1, ih1⟩
      · have := ih2 x
        simp only [PyDict.keys, List.map_cons, List.mem_cons] at this ⊢
        rw [this]; exact or_left_comm

private theorem mem_get {κ : Type} [DecidableEq κ] (d : PyDict κ Member) (h : (PyDict.keys d).Nodup) (k : κ) (m : Member) :
    (k, m) ∈ d ↔ PyDict.get d k = some m := by
  induction d with
  | nil => simp
  | cons p d ih =>
    obtain ⟨k', m'⟩ := p
    rw [PyDict.keys, List.map_cons, List.nodup_cons] at h
    by_cases e : k' = k
    · subst e
      simp only [PyDict.get, if_true, List.mem_cons, Prod.mk.injEq, Option.some.injEq]
      refine ⟨fun hm => ?_, fun hm => .inl ⟨trivial, hm.symm⟩⟩
      rcases hm with hm | hm
      · exact hm.2.symm
      · exact absurd (List.mem_map_of_mem (f := (·.1)) hm) h.1
    · simp [PyDict.get, e, ih h.2, Ne.symm e]

/-- C69: iterating gives one member for each number that is declared: the one that is looked up by the number. -/
theorem C69_iteration_by_number (body : List (Text × Attr)) (c : EnumClass) (h : enumClass body = .ok c) :
    (c.iter.map (·.value)).Nodup ∧ ∀ m, m ∈ c.iter ↔ c.lookup m.value = .ok m := by
  have ho := (C69_enumeration_declared body).1.mp ⟨c, h⟩
  rw [enumClass, bind_eq _ body ho] at h
  cases h
  have key : ∀ (l : List Member) (d : PyDict Int Member), (PyDict.keys d).Nodup → (∀ p ∈ d, p.2.value = p.1) →
      (PyDict.keys (l.foldl (fun d m => PyDict.set d m.value m) d)).Nodup ∧
        ∀ p ∈ l.foldl (fun d m => PyDict.set d m.value m) d, p.2.value = p.1 := by
    intro l
    induction l with
    | nil => exact fun d h1 h2 => ⟨h1, h2⟩
    | cons m l ih =>
      intro d h1 h2
      have hk := (keys_set d m.value m h1).1
      refine ih _ hk fun p hp => ?_
      obtain ⟨k, v⟩ := p
      rw [mem_get _ hk, PyDict.get_set] at hp
      split at hp
      · cases hp; exact (by assumption : k = _).symm
      · exact h2 (k, v) ((mem_get d h1 k v).mpr hp)
  obtain ⟨h1, h2⟩ := key (declared body) [] (by simp [PyDict.keys]) (by simp)
  simp only [EnumClass.iter, EnumClass.lookup]
  generalize (declared body).foldl (fun d m => PyDict.set d m.value m) [] = d at h1 h2
  refine ⟨?_, fun m => ?_⟩
  · rw [List.map_map]
    rwa [show List.map ((fun m : Member => m.value) ∘ fun p : Int × Member => p.2) d = PyDict.keys d from
      List.map_congr_left fun p hp => h2 p hp]
  · rw [List.mem_map]
    constructor
    · rintro ⟨⟨k, v⟩, hp, rfl⟩
      have := h2 _ hp
      simp only at this
      subst this
      rw [(mem_get d h1 _ _).mp hp]
    · intro hm
      refine ⟨(m.value, m), (mem_get d h1 _ _).mpr ?_, rfl⟩
      cases hg : PyDict.get d m.value with
      | none => simp [hg] at hm
      | some v => rw [hg] at hm; simp only [Except.ok.injEq] at hm; rw [hm]

/-- C69: `E.NAME` is the member declared with the name; looking it up by its number gives the same member, if the numbers
differ. -/
theorem C69_attribute (body : List (Text × Attr)) (c : EnumClass) (h : enumClass body = .ok c)
    (hn : ((declared body).map (·.name)).Nodup) (m : Member) (hm : m ∈ declared body) :
    c.attribute m.name = .ok m ∧ (((declared body).map (·.value)).Nodup → c.lookup m.value = .ok m) := by
  refine ⟨?_, fun hv => ?_⟩
  · have ho := (C69_enumeration_declared body).1.mp ⟨c, h⟩
    rw [enumClass, bind_eq _ body ho] at h
    cases h
    simp only [EnumClass.attribute]
    rw [foldl_new (fun m => m.name) _ _ (by simpa [PyDict.keys] using hn)]
    rw [(mem_get _ (by simpa [PyDict.keys, Function.comp_def] using hn) m.name m).mp (by simpa using hm)]
  · rw [← (C69_iteration_by_number body c h).2, C69_iteration body c h hv]
    exact hm

/-- C69: for a name that the body does not bind there is no member, but `AttributeError` (names that every class has, such as `mro`, apart). -/
theorem C69_attribute_unknown (body : List (Text × Attr)) (c : EnumClass) (h : enumClass body = .ok c) (name : Text) (hn : ∀ p ∈ body, p.1 ≠ name) :
    c.attribute name = .error .attributeError := by
  have ho := (C69_enumeration_declared body).1.mp ⟨c, h⟩
  rw [enumClass, bind_eq _ body ho] at h
  cases h
  simp only [EnumClass.attribute, get_foldl (fun m => m.name)]
  have : (declared body).reverse.find? (fun m => m.name = name) = none := by
    rw [List.find?_eq_none]
    intro m hm
    have key : ∀ b : List (Text × Attr), m ∈ declared b → ∃ p ∈ b, m.name = p.1 := by
      intro b
      induction b with
      | nil => simp [declared]
      | cons p b ih =>
        obtain ⟨x, a⟩ := p
        intro hm
        have lift : m ∈ declared b → ∃ p ∈ (x, a) :: b, m.name = p.1 := fun h => by
          obtain ⟨p, hp, e⟩ := ih h
          exact ⟨p, by simp [hp], e⟩
        cases a with
        | int n =>
          by_cases hx : isPrivate x = true
          · exact lift (by simpa [declared, hx] using hm)
          · simp only [declared, hx, Bool.false_eq_true, if_false, List.mem_cons] at hm
            rcases hm with rfl | hm
            · exact ⟨_, List.mem_cons_self, rfl⟩
            · exact lift hm
        | method => exact lift hm
        | other => exact lift hm
    obtain ⟨p, hp, hpm⟩ := key body (by simpa using hm)
    simpa [hpm] using hn p hp
  rw [this]
  rfl

/-- The body of `IonType` (`core.py:33-68`): the first members, a private name, a property. -/
def sampleBody : List (Text × Attr) :=
  [([95, 95, 100], .other), ([78, 85, 76, 76], .int 0), ([66, 79, 79, 76], .int 1), ([105, 115], .method), ([73, 78, 84], .int 2)]

/-- The hypotheses are met by a body like that of `IonType`, and the conclusions are about it. -/
example : ∃ c, enumClass sampleBody = .ok c ∧ c.iter = [⟨[78, 85, 76, 76], 0⟩, ⟨[66, 79, 79, 76], 1⟩, ⟨[73, 78, 84], 2⟩] ∧
    c.lookup 1 = .ok ⟨[66, 79, 79, 76], 1⟩ ∧ c.lookup 3 = .error .keyError := by
  refine ⟨_, rfl, rfl, rfl, rfl⟩

/-- Of two members with the same number, the second is the one that is found by the number and by iterating. -/
theorem C69_same_number : ∃ c, enumClass [([65], .int 1), ([66], .int 1)] = .ok c ∧ c.iter = [⟨[66], 1⟩] ∧
    c.attribute [65] = .ok ⟨[65], 1⟩ ∧ c.lookup 1 = .ok ⟨[66], 1⟩ := ⟨_, rfl, rfl, rfl, rfl⟩

/-! ## Records -/

/-- The declared names. -/
def namesOf (decls : List (Decl ν)) : List Text := decls.filterMap Decl.name?

private theorem fields_pairs (pairs : List (Text × ν)) (ns : List Text) (dfs : List ν) (b : Bool) :
    bindFields ns dfs b (pairs.map fun p => .pair p.1 p.2) = .ok ⟨ns ++ pairs.map (·.1), dfs ++ pairs.map (·.2)⟩ := by
  induction pairs generalizing ns dfs b with
  | nil => simp [bindFields]
  | cons p pairs ih => simp [bindFields, ih]

private theorem fields_ok (names : List Text) (pairs : List (Text × ν)) (ns : List Text) :
    bindFields ns [] false (names.map .plain ++ pairs.map fun p => .pair p.1 p.2) =
      .ok ⟨ns ++ names ++ pairs.map (·.1), pairs.map (·.2)⟩ := by
  induction names generalizing ns with
  | nil => simp [fields_pairs]
  | cons n names ih => simp [bindFields, ih]

private theorem fields_true (ds : List (Decl ν)) (ns : List Text) (dfs : List ν) :
    (∃ pairs : List (Text × ν), ds = pairs.map fun p => .pair p.1 p.2) ∨ bindFields ns dfs true ds = .error .valueError := by
  induction ds generalizing ns dfs with
  | nil => exact .inl ⟨[], rfl⟩
  | cons d ds ih =>
    cases d with
    | plain n => exact .inr rfl
    | other => exact .inr rfl
    | pair n v =>
      rcases ih (ns ++ [n]) (dfs ++ [v]) with ⟨ps, rfl⟩ | h
      · exact .inl ⟨(n, v) :: ps, rfl⟩
      · exact .inr (by rw [bindFields, h])

private theorem fields_false (ds : List (Decl ν)) (ns : List Text) :
    DefaultsLast ds ∨ bindFields ns [] false ds = .error .valueError := by
  induction ds generalizing ns with
  | nil => exact .inl ⟨[], [], rfl⟩
  | cons d ds ih =>
    cases d with
    | other => exact .inr rfl
    | plain n =>
      rcases ih (ns ++ [n]) with ⟨names, ps, rfl⟩ | h
      · exact .inl ⟨n :: names, ps, rfl⟩
      · exact .inr (by simp [bindFields, h])
    | pair n v =>
      rcases fields_true ds (ns ++ [n]) ([] ++ [v]) with ⟨ps, rfl⟩ | h
      · exact .inl ⟨[], (n, v) :: ps, rfl⟩
      · exact .inr (by rw [bindFields, h])

private theorem checkNames_iff (valid : Text → Bool) (ns : List Text) :
    checkNames valid ns = true ↔ ns.Nodup ∧ ∀ n ∈ ns, valid n = true ∧ isPrivate n = false := by
  induction ns with
  | nil => simp [checkNames]
  | cons n ns ih =>
    simp only [checkNames, Bool.and_eq_true, ih, Bool.not_eq_true', List.nodup_cons, List.forall_mem_cons]
    have : ns.contains n = false ↔ n ∉ ns := by simp
    rw [this]
    constructor
    · rintro ⟨⟨⟨a, b⟩, c⟩, d, e⟩; exact ⟨⟨c, d⟩, ⟨a, b⟩, e⟩
    · rintro ⟨⟨c, d⟩, ⟨a, b⟩, e⟩; exact ⟨⟨⟨a, b⟩, c⟩, d, e⟩

private theorem names_of (names : List Text) (pairs : List (Text × ν)) :
    namesOf (names.map .plain ++ pairs.map fun p => .pair p.1 p.2) = names ++ pairs.map (·.1) := by
  have h1 : (names.map (Decl.plain (ν := ν))).filterMap Decl.name? = names := by
    induction names with
    | nil => rfl
    | cons n ns ih => simpa [Decl.name?] using ih
  have h2 : (pairs.map fun p => Decl.pair p.1 p.2).filterMap Decl.name? = pairs.map (·.1) := by
    induction pairs with
    | nil => rfl
    | cons n ns ih => simpa [Decl.name?] using ih
  rw [namesOf, List.filterMap_append, h1, h2]

/-- C70: a record can be declared exactly when its fields are names and then pairs, with names that are different public
identifiers; otherwise the declaration raises `ValueError`. -/
theorem C70_record_declared (valid : Text → Bool) (decls : List (Decl ν)) :
    ((∃ c, recordClass valid decls = .ok c) ↔
      DefaultsLast decls ∧ (namesOf decls).Nodup ∧ ∀ n ∈ namesOf decls, valid n = true ∧ isPrivate n = false) ∧
    ((¬ ∃ c, recordClass valid decls = .ok c) → recordClass valid decls = .error .valueError) := by
  rcases fields_false decls [] with ⟨names, pairs, rfl⟩ | h
  · rw [recordClass, fields_ok, names_of, ← checkNames_iff]
    simp only [List.nil_append]
    by_cases hc : checkNames valid (names ++ pairs.map (·.1)) = true
    · simp only [hc, if_true, and_true]
      exact ⟨⟨fun _ => ⟨names, pairs, rfl⟩, fun _ => ⟨_, rfl⟩⟩, fun hh => absurd ⟨_, rfl⟩ hh⟩
    · simp [hc]
  · refine ⟨⟨fun ⟨c, hc⟩ => ?_, fun ⟨⟨names, pairs, hd⟩, _⟩ => ?_⟩, fun _ => by rw [recordClass, h]⟩
    · rw [recordClass, h] at hc; cases hc
    · rw [hd, fields_ok] at h; cases h

private theorem bind_pairs (kw : PyDict Text ν) (all : List ν) (n : Nat) (pairs : List (Text × ν)) (i : Nat) (args vs : List ν)
    (hi : n - all.length ≤ i) (hd : ∀ j (h : j < pairs.length), all[i + j - (n - all.length)]? = some (pairs[j]'h).2) :
    bindArgs all n kw i (pairs.map (·.1)) args = .ok vs ↔ Filled kw (pairs.map fun p => .pair p.1 p.2) args vs := by
  induction pairs generalizing i args vs with
  | nil =>
    cases args with
    | nil =>
      simp only [List.map_nil, bindArgs, Except.ok.injEq]
      exact ⟨fun h => h ▸ .nil, fun h => by cases h; rfl⟩
    | cons a args => exact ⟨fun h => by simp [bindArgs] at h, fun h => by cases h⟩
  | cons p pairs ih =>
    have hd' := fun args vs => ih (i + 1) args vs (by omega) fun j h => by
      have := hd (j + 1) (by simpa using h)
      rw [show i + 1 + j = i + (j + 1) by omega]
      simpa using this
    have h0 := hd 0 (by simp)
    simp only [Nat.add_zero, List.getElem_cons_zero] at h0
    cases args with
    | cons a args =>
      simp only [List.map_cons, bindArgs]
      cases hk : PyDict.get kw p.1 with
      | some v =>
        refine ⟨fun h => by simp at h, fun h => ?_⟩
        cases h with
        | given hn hg _ => simp only [Decl.name?, Option.some.injEq] at hn; rw [← hn, hk] at hg; cases hg
      | none =>
        simp only [Option.isSome_none, Bool.false_eq_true, if_false]
        constructor
        · intro h
          cases hb : bindArgs all n kw (i + 1) (pairs.map (·.1)) args with
          | error err => rw [hb] at h; cases h
          | ok ws => rw [hb] at h; cases h; exact .given rfl hk ((hd' _ _).mp hb)
        · intro h
          cases h with
          | given hn hg hf => rw [(hd' _ _).mpr hf]
    | nil =>
      simp only [List.map_cons, bindArgs]
      cases hk : PyDict.get kw p.1 with
      | some v =>
        simp only
        constructor
        · intro h
          cases hb : bindArgs all n kw (i + 1) (pairs.map (·.1)) [] with
          | error err => rw [hb] at h; cases h
          | ok ws => rw [hb] at h; cases h; exact .named rfl hk ((hd' _ _).mp hb)
        · intro h
          cases h with
          | named hn hg hf =>
            simp only [Decl.name?, Option.some.injEq] at hn
            rw [← hn, hk] at hg; cases hg
            rw [(hd' _ _).mpr hf]
          | default hn hg _ _ => simp only [Decl.name?, Option.some.injEq] at hn; rw [← hn, hk] at hg; cases hg
      | none =>
        simp only [h0, if_neg (Nat.not_lt.mpr hi)]
        constructor
        · intro h
          cases hb : bindArgs all n kw (i + 1) (pairs.map (·.1)) [] with
          | error err => rw [hb] at h; cases h
          | ok ws => rw [hb] at h; cases h; exact .default rfl hk rfl ((hd' _ _).mp hb)
        · intro h
          cases h with
          | named hn hg _ => simp only [Decl.name?, Option.some.injEq] at hn; rw [← hn, hk] at hg; cases hg
          | default hn hg hdf hf =>
            simp only [Decl.default?, Option.some.injEq] at hdf
            subst hdf
            rw [(hd' _ _).mpr hf]

private theorem bind_all (kw : PyDict Text ν) (all : List ν) (n : Nat) (names : List Text) (pairs : List (Text × ν)) (i : Nat)
    (args vs : List ν) (hall : all = pairs.map (·.2)) (hn : n = i + names.length + pairs.length) :
    bindArgs all n kw i (names ++ pairs.map (·.1)) args = .ok vs ↔
      Filled kw (names.map .plain ++ pairs.map fun p => .pair p.1 p.2) args vs := by
  have hl : all.length = pairs.length := by rw [hall, List.length_map]
  induction names generalizing i args vs with
  | nil =>
    simp only [List.length_nil, Nat.add_zero] at hn
    refine bind_pairs kw all n pairs i args vs (by omega) fun j h => ?_
    rw [show i + j - (n - all.length) = j by omega, hall]
    simp [h]
  | cons m names ih =>
    have hd' := fun args vs => ih (i + 1) args vs (by simp at hn; omega)
    cases args with
    | cons a args =>
      simp only [List.cons_append, List.map_cons, bindArgs]
      cases hk : PyDict.get kw m with
      | some v =>
        refine ⟨fun h => by simp at h, fun h => ?_⟩
        cases h with
        | given hn hg _ => simp only [Decl.name?, Option.some.injEq] at hn; rw [← hn, hk] at hg; cases hg
      | none =>
        simp only [Option.isSome_none, Bool.false_eq_true, if_false]
        constructor
        · intro h
          cases hb : bindArgs all n kw (i + 1) (names ++ pairs.map (·.1)) args with
          | error err => rw [hb] at h; cases h
          | ok ws => rw [hb] at h; cases h; exact .given rfl hk ((hd' _ _).mp hb)
        · intro h
          cases h with
          | given hn hg hf => rw [(hd' _ _).mpr hf]
    | nil =>
      simp only [List.cons_append, List.map_cons, bindArgs]
      cases hk : PyDict.get kw m with
      | some v =>
        simp only
        constructor
        · intro h
          cases hb : bindArgs all n kw (i + 1) (names ++ pairs.map (·.1)) [] with
          | error err => rw [hb] at h; cases h
          | ok ws => rw [hb] at h; cases h; exact .named rfl hk ((hd' _ _).mp hb)
        · intro h
          cases h with
          | named hn hg hf =>
            simp only [Decl.name?, Option.some.injEq] at hn
            rw [← hn, hk] at hg; cases hg
            rw [(hd' _ _).mpr hf]
          | default hn hg _ _ => simp only [Decl.name?, Option.some.injEq] at hn; rw [← hn, hk] at hg; cases hg
      | none =>
        have : i < n - all.length := by simp at hn; omega
        simp only [this, if_true]
        refine ⟨fun h => (by cases h), fun h => ?_⟩
        cases h with
        | named hn hg _ => simp only [Decl.name?, Option.some.injEq] at hn; rw [← hn, hk] at hg; cases hg
        | default hn hg hdf hf => cases hdf

private theorem bind_type (defaults : List ν) (n : Nat) (kw : PyDict Text ν) (i : Nat) (names : List Text) (args : List ν)
    (err : PyErr) (h : bindArgs defaults n kw i names args = .error err) : err = .typeError := by
  induction names generalizing i args with
  | nil =>
    cases args with
    | nil => cases h
    | cons a args => cases h; rfl
  | cons m names ih =>
    cases args with
    | cons a args =>
      rw [bindArgs] at h
      split at h
      · cases h; rfl
      · cases hb : bindArgs defaults n kw (i + 1) names args with
        | error e => rw [hb] at h; cases h; exact ih _ _ hb
        | ok ws => rw [hb] at h; cases h
    | nil =>
      rw [bindArgs] at h
      split at h
      · cases hb : bindArgs defaults n kw (i + 1) names [] with
        | error e => rw [hb] at h; cases h; exact ih _ _ hb
        | ok ws => rw [hb] at h; cases h
      · split at h
        · cases h; rfl
        · split at h
          · cases h; rfl
          · cases hb : bindArgs defaults n kw (i + 1) names [] with
            | error e => rw [hb] at h; cases h; exact ih _ _ hb
            | ok ws => rw [hb] at h; cases h

/-- C70: calling a record gives every field the value given for it, by position or by name, and otherwise the default that was
declared with it; it fails, with `TypeError`, exactly when that is not possible or an argument has the name of no field. -/
theorem C70_record_fields (valid : Text → Bool) (decls : List (Decl ν)) (c : RecordClass ν)
    (h : recordClass valid decls = .ok c) (args : List ν) (kw : PyDict Text ν) :
    (∀ vs, c.call args kw = .ok vs ↔ Filled kw decls args vs ∧ ∀ k ∈ PyDict.keys kw, k ∈ namesOf decls) ∧
    ((∃ vs, c.call args kw = .ok vs) ∨ c.call args kw = .error .typeError) := by
  obtain ⟨⟨names, pairs, rfl⟩, -⟩ := (C70_record_declared valid decls).1.mp ⟨c, h⟩
  rw [recordClass, fields_ok] at h
  simp only [List.nil_append] at h
  split at h <;> cases h
  refine ⟨fun vs => ?_, ?_⟩
  · rw [RecordClass.call, names_of]
    simp only
    split
    · rename_i hk
      rw [bind_all kw _ _ names pairs 0 args vs rfl (by simp)]
      simp only [List.all_eq_true, List.contains_iff_mem] at hk
      exact ⟨fun h => ⟨h, hk⟩, fun h => h.1⟩
    · rename_i hk
      refine ⟨fun h => (by cases h), fun ⟨_, h⟩ => absurd ?_ hk⟩
      simp only [List.all_eq_true, List.contains_iff_mem]
      exact h
  · rw [RecordClass.call]
    split
    · cases hb : bindArgs (pairs.map (·.2)) (names ++ pairs.map (·.1)).length kw 0 (names ++ pairs.map (·.1)) args with
      | ok vs => exact .inl ⟨vs, rfl⟩
      | error err => exact .inr (by rw [bind_type _ _ _ _ _ _ _ hb])
    · exact .inr rfl

/-- What `Filled` gives is one list of fields, as many as are declared. -/
theorem C70_fields_determined (kw : PyDict Text ν) (decls : List (Decl ν)) (args vs ws : List ν) (h : Filled kw decls args vs)
    (h' : Filled kw decls args ws) : vs = ws ∧ vs.length = decls.length := by
  induction h generalizing ws with
  | nil => cases h'; exact ⟨rfl, rfl⟩
  | given hn hg hf ih =>
    cases h' with
    | given hn' hg' hf' => obtain ⟨rfl, hl⟩ := ih _ hf'; exact ⟨rfl, by simp [hl]⟩
  | named hn hg hf ih =>
    cases h' with
    | named hn' hg' hf' =>
      rw [hn] at hn'; cases hn'; rw [hg] at hg'; cases hg'
      obtain ⟨rfl, hl⟩ := ih _ hf'; exact ⟨rfl, by simp [hl]⟩
    | default hn' hg' _ _ => rw [hn] at hn'; cases hn'; rw [hg] at hg'; cases hg'
  | default hn hg hd hf ih =>
    cases h' with
    | named hn' hg' hf' => rw [hn] at hn'; cases hn'; rw [hg] at hg'; cases hg'
    | default hn' hg' hd' hf' =>
      rw [hd] at hd'; cases hd'
      obtain ⟨rfl, hl⟩ := ih _ hf'; exact ⟨rfl, by simp [hl]⟩

/-- `_ManagedContext` (`reader_managed.py:33`): one field without a default and one with. -/
example : ∃ c, recordClass (fun _ => true) [.plain [99], .pair [115] (7 : Nat)] = .ok c ∧ c.call [1] [] = .ok [1, 7] ∧
    c.call [] [([115], 2), ([99], 3)] = .ok [3, 2] ∧ c.call [] [] = .error .typeError ∧
    c.call [1] [([99], 2)] = .error .typeError ∧ c.call [1] [([120], 2)] = .error .typeError :=
  ⟨_, rfl, rfl, rfl, rfl, rfl, rfl⟩

end Ion.Declared

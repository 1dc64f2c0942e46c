import Verif.Methods

/-!
# Properties C05–C07 (method name tables)
-/

namespace Verif

/-- The two tables shipped with the library. -/
def IsShipped (ms : List (String × ℤ)) : Prop := ms = erkMethods ∨ ms = irkMethods

theorem shipped_good {ms : List (String × ℤ)} (h : IsShipped ms) :
    (Tables.init ms).Good ms := by
  rcases h with rfl | rfl
  · exact Tables.good_init (by decide) (by decide)
  · exact Tables.good_init (by decide) (by decide)

/-- **C05.**  For both tables, every enumerated method and every history of earlier lookups (known or unknown
names or codes), `name_to_method(method_to_name(m)) == m` and `method_to_name(m)` is the enumerator's
name. -/
theorem C05_round_trip {ms : List (String × ℤ)} (hs : IsShipped ms) (h : List Lookup)
    (s : String) (m : ℤ) (hm : (s, m) ∈ ms) :
    let T := (Tables.init ms).after h
    (T.methodToName m).1 = s ∧ ((T.methodToName m).2.nameToMethod (T.methodToName m).1).1 = m := by
  have g := (shipped_good hs).after h
  have h1 := g.str s m hm
  have h2 := g.met s m hm
  simp only [Tables.methodToName, Tables.nameToMethod, mapIndex, h1, h2, and_self]

example : (((Tables.init erkMethods).after [.byCode 7, .byName "foo"]).methodToName 131).1 = "DORMAND_PRINCE_54" :=
  (C05_round_trip (Or.inl rfl) _ _ _ (by decide)).1

example : ("DORMAND_PRINCE_54", (131 : ℤ)) ∈ erkMethods ∧
    (((Tables.init erkMethods).after [.byCode 7, .byName "foo"]).methodToName 131).1
      = "DORMAND_PRINCE_54" := by
  exact ⟨by decide, by decide⟩

/-- **C06.**  A name that is not enumerated resolves to 0 after any history, and 0 is not the code of any
method: a lookup never selects a wrong method. -/
theorem C06_unknown_name {ms : List (String × ℤ)} (hs : IsShipped ms) (h : List Lookup)
    (s : String) (hsn : s ∉ ms.map Prod.fst) :
    (((Tables.init ms).after h).nameToMethod s).1 = 0 ∧ (0 : ℤ) ∉ ms.map Prod.snd := by
  have g := (shipped_good hs).after h
  constructor
  · rcases g.unkMet s hsn with e | e <;> simp [Tables.nameToMethod, mapIndex, e]
  · rcases hs with rfl | rfl <;> decide

example : (((Tables.init erkMethods).after [.byName "RK4", .byName "RK4"]).nameToMethod "RK4").1 = 0 :=
  (C06_unknown_name (Or.inl rfl) _ _ (by decide)).1

/-- **C06 (whole domain).**  For every string and history the result of `name_to_method` is the code of that very name or 0. -/
theorem C06_resolves_or_zero {ms : List (String × ℤ)} (hs : IsShipped ms) (h : List Lookup)
    (s : String) :
    (s, (((Tables.init ms).after h).nameToMethod s).1) ∈ ms ∨
      (((Tables.init ms).after h).nameToMethod s).1 = 0 := by
  by_cases hm : s ∈ ms.map Prod.fst
  · obtain ⟨⟨a, m⟩, hp, rfl⟩ := List.mem_map.mp hm
    left
    have := ((shipped_good hs).after h).met a m hp
    simpa [Tables.nameToMethod, mapIndex, this] using hp
  · exact Or.inr (C06_unknown_name hs h s hm).1

example : ("", (((Tables.init irkMethods).after [.byCode 0]).nameToMethod "").1) ∈ irkMethods ∨
    (((Tables.init irkMethods).after [.byCode 0]).nameToMethod "").1 = 0 := C06_resolves_or_zero (Or.inr rfl) _ _

/-- The selection idiom of examples/example_equations.cpp 278-311: try the irk table, then the erk table.
Result: `some (inl code)` = irk, `some (inr code)` = erk, `none` = "not recognized". -/
def selectMethod (Ti Te : Tables) (s : String) : Option (ℤ ⊕ ℤ) :=
  let m := (Ti.nameToMethod s).1
  if m ≠ 0 then some (.inl m)
  else
    let m := (Te.nameToMethod s).1
    if m ≠ 0 then some (.inr m) else none

/-- **C06 (example program).**  Whatever was looked up before, the example program runs the method that was
named, and refuses exactly the unknown names. -/
theorem C06_select (hi he : List Lookup) (s : String) :
    let r := selectMethod ((Tables.init irkMethods).after hi) ((Tables.init erkMethods).after he) s
    (∀ m, r = some (.inl m) ↔ (s, m) ∈ irkMethods) ∧
    (∀ m, r = some (.inr m) ↔ (s, m) ∈ erkMethods) := by
  have gi := (shipped_good (Or.inr rfl)).after hi
  have ge := (shipped_good (Or.inl rfl)).after he
  have nz : ∀ s m, (s, m) ∈ irkMethods → m ≠ 0 := by
    intro s m h; rintro rfl
    have : (0 : ℤ) ∈ irkMethods.map Prod.snd := List.mem_map.mpr ⟨_, h, rfl⟩
    revert this; decide
  have nz' : ∀ s m, (s, m) ∈ erkMethods → m ≠ 0 := by
    intro s m h; rintro rfl
    have : (0 : ℤ) ∈ erkMethods.map Prod.snd := List.mem_map.mpr ⟨_, h, rfl⟩
    revert this; decide
  have disj : ∀ s, s ∈ irkMethods.map Prod.fst → s ∉ erkMethods.map Prod.fst := by decide
  intro r
  by_cases h1 : s ∈ irkMethods.map Prod.fst
  · obtain ⟨⟨a, m0⟩, hp, rfl⟩ := List.mem_map.mp h1
    have l1 := gi.met a m0 hp
    have hr : r = some (.inl m0) := by
      simp [r, selectMethod, Tables.nameToMethod, mapIndex, l1, nz a m0 hp]
    constructor
    · intro m
      rw [hr]
      simp only [Option.some.injEq, Sum.inl.injEq]
      constructor
      · rintro rfl; exact hp
      · intro h; have := gi.met a m h; rw [l1] at this; simpa using this
    · intro m
      rw [hr]
      simp only [Option.some.injEq, reduceCtorEq, false_iff]
      intro h
      exact disj a h1 (List.mem_map.mpr ⟨_, h, rfl⟩)
  · have z1 := (C06_unknown_name (Or.inr rfl) hi s h1).1
    have n1 : ∀ m, (s, m) ∉ irkMethods := fun m h => h1 (List.mem_map.mpr ⟨_, h, rfl⟩)
    by_cases h2 : s ∈ erkMethods.map Prod.fst
    · obtain ⟨⟨a, m0⟩, hp, rfl⟩ := List.mem_map.mp h2
      have l1 := ge.met a m0 hp
      have hr : r = some (.inr m0) := by
        simp only [r, selectMethod, z1]
        simp [Tables.nameToMethod, mapIndex, l1, nz' a m0 hp]
      constructor
      · intro m; rw [hr]; simp [n1 m]
      · intro m
        rw [hr]
        simp only [Option.some.injEq, Sum.inr.injEq]
        constructor
        · rintro rfl; exact hp
        · intro h; have := ge.met a m h; rw [l1] at this; simpa using this
    · have z2 := (C06_unknown_name (Or.inl rfl) he s h2).1
      have n2 : ∀ m, (s, m) ∉ erkMethods := fun m h => h2 (List.mem_map.mpr ⟨_, h, rfl⟩)
      have hr : r = none := by simp [r, selectMethod, z1, z2]
      constructor <;> intro m <;> rw [hr] <;> simp [n1, n2]

example : selectMethod ((Tables.init irkMethods).after [.byName "RUNGE_KUTTA_4"]) (Tables.init erkMethods)
    "RUNGE_KUTTA_4" = some (.inr 110) := ((C06_select [.byName "RUNGE_KUTTA_4"] [] _).2 110).2 (by decide)

example : selectMethod ((Tables.init irkMethods).after [.byName "x"]) (Tables.init erkMethods)
    "RADAU_IIA_53" = some (.inl 211) := by decide

/-- C07 as documented: the listing is exactly the enumerated methods, whatever was looked up. -/
def C07_claim : Prop :=
  ∀ ms, IsShipped ms → ∀ (h : List Lookup) (s : String),
    s ∈ ((Tables.init ms).after h).allMethodNames ↔ s ∈ ms.map Prod.fst

/-- **C07 is false of the code**: a failed lookup adds its name to the listing. -/
theorem C07_refuted : ¬ C07_claim := by
  intro hc
  have := (hc erkMethods (Or.inl rfl) [.byName "RK4"] "RK4").mp (by decide)
  revert this; decide

/-- The part of C07 that holds: the listing always contains every method, and it is exactly the enumeration as
long as only enumerated names were looked up (codes may be arbitrary).  Missing: histories containing an
unknown name, for which the listing contains that name too. -/
theorem C07_listing_partial {ms : List (String × ℤ)} (hs : IsShipped ms) (h : List Lookup) :
    (∀ s ∈ ms.map Prod.fst, s ∈ ((Tables.init ms).after h).allMethodNames) ∧
    ((∀ s, Lookup.byName s ∈ h → s ∈ ms.map Prod.fst) →
      ((Tables.init ms).after h).allMethodNames = ms.map Prod.fst) := by
  constructor
  · intro s hm
    obtain ⟨⟨a, m⟩, hp, rfl⟩ := List.mem_map.mp hm
    have := ((shipped_good hs).after h).met a m hp
    by_contra hn
    rw [lookup_none_of_not_mem hn] at this
    cases this
  · have key : ∀ (h : List Lookup) (T : Tables), T.Good ms → T.toMethod = ms →
        (∀ s, Lookup.byName s ∈ h → s ∈ ms.map Prod.fst) → (T.after h).toMethod = ms := by
      intro h
      induction h with
      | nil => intro T _ e _; exact e
      | cons l ls ih =>
        intro T g e hk
        refine ih (T.apply l) (g.apply l) ?_ (fun s hmem => hk s (List.mem_cons_of_mem _ hmem))
        cases l with
        | byCode c => exact e
        | byName n =>
          have hn := hk n List.mem_cons_self
          obtain ⟨⟨a, m⟩, hp, rfl⟩ := List.mem_map.mp hn
          simp only [Tables.apply, Tables.nameToMethod, mapIndex, g.met a m hp]
          exact e
    intro hk
    simp only [Tables.allMethodNames, key h _ (shipped_good hs) rfl hk]

example : ((Tables.init irkMethods).after [.byCode 3, .byName "RADAU_IIA_53"]).allMethodNames = irkMethods.map Prod.fst :=
  (C07_listing_partial (Or.inr rfl) _).2 (by simp [irkMethods])

example : ((Tables.init irkMethods).after [.byCode 3, .byName "RADAU_IIA_53"]).allMethodNames.length
    = 16 := by decide

end Verif

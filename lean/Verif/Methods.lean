import Mathlib.Data.List.Nodup
import Verif.Core

/-!
# Model of the method enumerations and name tables

enums.hpp 37-69, erk.hpp (maps `rk_method_to_string`, `rk_string_to_method`), irk.hpp (same names),
erk.cpp 259-278, irk.cpp 709-728.
-/

namespace Verif

/-- `FOREACH_ERK_METHOD` (enums.hpp 61-69). -/
def erkMethods : List (String × ℤ) :=
  [("EXPLICIT_EULER", 100), ("RUNGE_KUTTA_4", 110), ("BOGACKI_SHAMPINE_32", 120),
   ("CASH_KARP_54", 130), ("DORMAND_PRINCE_54", 131), ("FEHLBERG_54", 132)]

/-- `FOREACH_IRK_METHOD` (enums.hpp 38-58). -/
def irkMethods : List (String × ℤ) :=
  [("IMPLICIT_EULER", 200), ("RADAU_IIA_32", 210), ("RADAU_IIA_53", 211), ("RADAU_IIA_95", 212),
   ("RADAU_IIA_137", 213), ("LOBATTO_IIIA_43", 220), ("LOBATTO_IIIA_85", 221),
   ("LOBATTO_IIIA_127", 222), ("LOBATTO_IIIC_43", 230), ("LOBATTO_IIIC_64", 231),
   ("LOBATTO_IIIC_85", 232), ("LOBATTO_IIIC_127", 233), ("GAUSS_LEGENDRE_42", 240),
   ("GAUSS_LEGENDRE_63", 241), ("GAUSS_LEGENDRE_105", 242), ("GAUSS_LEGENDRE_147", 243)]

/-- The two `static std::map`s of a table (erk.hpp 114-120 and the same in irk.hpp).  A map is an association
list; the iteration order of `std::map` (sorted keys) is not modelled. -/
structure Tables where
  toStr : List (ℤ × String)
  toMethod : List (String × ℤ)

/-- Initial contents generated by the `FOREACH` macros with `GENERATE_STRING` / `GENERATE_MAP`
(enums.hpp 76-78). -/
def Tables.init (ms : List (String × ℤ)) : Tables :=
  { toStr := ms.map (fun p => (p.2, p.1)), toMethod := ms }

/-- `std::map::operator[]` (erk.cpp 261 and 267, irk.cpp 711 and 717): returns the value for the key, inserting `dflt` if it is missing. -/
def mapIndex {K V : Type} [BEq K] (m : List (K × V)) (k : K) (dflt : V) : V × List (K × V) :=
  match m.lookup k with
  | some v => (v, m)
  | none => (dflt, m ++ [(k, dflt)])

/-- `method_to_name` (erk.cpp 259-262, irk.cpp 709-712). -/
def Tables.methodToName (T : Tables) (m : ℤ) : String × Tables :=
  let r := mapIndex T.toStr m ""
  (r.1, { T with toStr := r.2 })

/-- `name_to_method` (erk.cpp 265-268, irk.cpp 715-718). -/
def Tables.nameToMethod (T : Tables) (s : String) : ℤ × Tables :=
  let r := mapIndex T.toMethod s 0
  (r.1, { T with toMethod := r.2 })

/-- `all_method_names` (erk.cpp 271-278, irk.cpp 721-728). -/
def Tables.allMethodNames (T : Tables) : List String := T.toMethod.map Prod.fst

/-- A call that touches the tables.  `get_coefficients(m)` calls `method_to_name(m)` (erk.cpp 16). -/
inductive Lookup where
  | byCode (m : ℤ)
  | byName (s : String)

/-- State change of one call. -/
def Tables.apply (T : Tables) : Lookup → Tables
  | .byCode m => (T.methodToName m).2
  | .byName s => (T.nameToMethod s).2

/-- State after a history of calls. -/
def Tables.after (T : Tables) (h : List Lookup) : Tables := h.foldl Tables.apply T

section lemmas
variable {K V : Type} [BEq K]

theorem lookup_append_some {m : List (K × V)} {k : K} {v : V} (h : m.lookup k = some v)
    (m' : List (K × V)) : (m ++ m').lookup k = some v := by
  rw [List.lookup_append, h]; rfl

theorem lookup_append_none {m : List (K × V)} {k : K} (h : m.lookup k = none)
    (m' : List (K × V)) : (m ++ m').lookup k = m'.lookup k := by
  rw [List.lookup_append, h]; rfl

/-- `operator[]` never changes the value of a key that is present. -/
theorem mapIndex_keeps {m : List (K × V)} {k : K} {v : V} (h : m.lookup k = some v) (k' : K)
    (d : V) : (mapIndex m k' d).2.lookup k = some v := by
  unfold mapIndex
  split
  · exact h
  · exact lookup_append_some h _

/-- keys that are absent either stay absent or hold the default afterwards -/
theorem mapIndex_absent {m : List (K × V)} {k : K} {d : V}
    (h : m.lookup k = none ∨ m.lookup k = some d) (k' : K) :
    (mapIndex m k' d).2.lookup k = none ∨ (mapIndex m k' d).2.lookup k = some d := by
  unfold mapIndex
  split
  · exact h
  · rcases h with h | h
    · rw [lookup_append_none h]
      cases e : (k == k')
      · left; simp [List.lookup, e]
      · right; simp [List.lookup, e]
    · right; exact lookup_append_some h _

end lemmas

/-- Invariant of the tables built from `ms` under any history. -/
structure Tables.Good (ms : List (String × ℤ)) (T : Tables) : Prop where
  str : ∀ s m, (s, m) ∈ ms → T.toStr.lookup m = some s
  met : ∀ s m, (s, m) ∈ ms → T.toMethod.lookup s = some m
  unkMet : ∀ s, s ∉ ms.map Prod.fst → T.toMethod.lookup s = none ∨ T.toMethod.lookup s = some 0
  unkStr : ∀ m, m ∉ ms.map Prod.snd → T.toStr.lookup m = none ∨ T.toStr.lookup m = some ""

theorem Tables.Good.apply {ms : List (String × ℤ)} {T : Tables} (g : T.Good ms) (l : Lookup) :
    (T.apply l).Good ms := by
  cases l with
  | byCode c =>
    exact ⟨fun s m h => mapIndex_keeps (g.str s m h) c "", g.met, g.unkMet,
      fun m h => mapIndex_absent (g.unkStr m h) c⟩
  | byName n =>
    exact ⟨g.str, fun s m h => mapIndex_keeps (g.met s m h) n 0,
      fun s h => mapIndex_absent (g.unkMet s h) n, g.unkStr⟩

theorem Tables.Good.after {ms : List (String × ℤ)} : ∀ (h : List Lookup) {T : Tables},
    T.Good ms → (T.after h).Good ms
  | [], _, g => g
  | l :: ls, _, g => Tables.Good.after ls (g.apply l)

theorem lookup_of_mem {K V : Type} [BEq K] [LawfulBEq K] {m : List (K × V)}
    (hn : (m.map Prod.fst).Nodup) {k : K} {v : V} (h : (k, v) ∈ m) : m.lookup k = some v := by
  induction m with
  | nil => simp at h
  | cons p m ih =>
    obtain ⟨a, b⟩ := p
    simp only [List.map_cons, List.nodup_cons] at hn
    rcases List.mem_cons.mp h with e | e
    · cases e; simp [List.lookup]
    · have : k ≠ a := by
        rintro rfl
        exact hn.1 (List.mem_map.mpr ⟨(k, v), e, rfl⟩)
      have hb : (k == a) = false := by simpa using this
      simp [List.lookup, hb, ih hn.2 e]

theorem lookup_none_of_not_mem {K V : Type} [BEq K] [LawfulBEq K] {m : List (K × V)} {k : K}
    (h : k ∉ m.map Prod.fst) : m.lookup k = none := by
  induction m with
  | nil => rfl
  | cons p m ih =>
    obtain ⟨a, b⟩ := p
    simp only [List.map_cons, List.mem_cons, not_or] at h
    have hb : (k == a) = false := by simpa using h.1
    simp [List.lookup, hb, ih h.2]

theorem Tables.good_init {ms : List (String × ℤ)} (h1 : (ms.map Prod.fst).Nodup)
    (h2 : (ms.map Prod.snd).Nodup) : (Tables.init ms).Good ms := by
  refine ⟨fun s m h => ?_, fun s m h => lookup_of_mem h1 h,
    fun s h => Or.inl (lookup_none_of_not_mem h), fun m h => Or.inl ?_⟩
  · apply lookup_of_mem
    · simpa [Tables.init, Function.comp_def] using h2
    · exact List.mem_map.mpr ⟨(s, m), h, rfl⟩
  · apply lookup_none_of_not_mem
    simpa [Tables.init, Function.comp_def] using h

end Verif

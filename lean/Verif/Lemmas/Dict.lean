import Verif.Model.Build
import Verif.Lemmas.Loops

/-! # Dictionaries -/

set_option linter.unusedSectionVars false

namespace CLF

variable {α β : Type}

theorem Dict.get?_set (d : Dict α) (k k' : String) (v : α) :
    (d.set k v).get? k' = if k = k' then some v else d.get? k' := by
  induction d with
  | nil => simp only [Dict.set, Dict.get?]
  | cons p d ih =>
    obtain ⟨q, w⟩ := p
    unfold Dict.set
    by_cases h : q = k
    · subst h
      rw [if_pos rfl]
      simp only [Dict.get?]
      by_cases h2 : q = k' <;> simp [h2]
    · rw [if_neg h]
      simp only [Dict.get?]
      by_cases h2 : q = k'
      · subst h2
        rw [if_pos rfl, if_pos rfl, if_neg (Ne.symm h)]
      · rw [if_neg h2, if_neg h2, ih]

theorem Dict.get?_eq_none (d : Dict α) (k : String) : d.get? k = none ↔ k ∉ d.map Prod.fst := by
  induction d with
  | nil => simp [Dict.get?]
  | cons p d ih =>
    obtain ⟨q, w⟩ := p
    simp only [Dict.get?, List.map_cons, List.mem_cons, not_or]
    by_cases h : q = k
    · subst h; simp
    · rw [if_neg h, ih]; simp [Ne.symm h]

theorem Dict.get?_of_mem (d : Dict α) (hd : (d.map Prod.fst).Nodup) (k : String) (v : α)
    (h : (k, v) ∈ d) : d.get? k = some v := by
  induction d with
  | nil => cases h
  | cons p d ih =>
    obtain ⟨q, w⟩ := p
    rw [List.map_cons, List.nodup_cons] at hd
    rcases List.mem_cons.mp h with h | h
    · injection h with h1 h2
      subst h1 h2
      simp [Dict.get?]
    · have : q ≠ k := by
        rintro rfl
        exact hd.1 (List.mem_map.mpr ⟨_, h, rfl⟩)
      simp only [Dict.get?]
      rw [if_neg this, ih hd.2 h]

theorem Dict.mem_of_get? (d : Dict α) (k : String) (v : α) (h : d.get? k = some v) : (k, v) ∈ d := by
  induction d with
  | nil => cases h
  | cons p d ih =>
    obtain ⟨q, w⟩ := p
    simp only [Dict.get?] at h
    by_cases hq : q = k
    · subst hq; rw [if_pos rfl] at h; injection h with h; subst h; exact List.mem_cons_self ..
    · rw [if_neg hq] at h; exact List.mem_cons_of_mem _ (ih h)

theorem Dict.get?_foldl_set (l : Dict β) (f : β → α) (hl : (l.map Prod.fst).Nodup) (d : Dict α)
    (k : String) : Dict.get? (l.foldl (fun d kv => Dict.set d kv.1 (f kv.2)) d) k =
      match l.get? k with
      | some v => some (f v)
      | none => d.get? k := by
  induction l generalizing d with
  | nil => rfl
  | cons p l ih =>
    obtain ⟨q, w⟩ := p
    rw [List.map_cons, List.nodup_cons] at hl
    rw [List.foldl_cons, ih hl.2]
    simp only [Dict.get?]
    by_cases hq : q = k
    · subst hq
      have : Dict.get? l q = none := (Dict.get?_eq_none _ _).mpr hl.1
      rw [this, if_pos rfl]
      simp only [Dict.get?_set, if_true]
    · rw [if_neg hq]
      cases Dict.get? l k with
      | some v => rfl
      | none => simp only [Dict.get?_set, if_neg hq]

end CLF

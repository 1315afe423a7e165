import Verif.Model.Image
import Verif.Props.Nodes
import Verif.Lemmas.SelfContained

set_option linter.unusedSectionVars false

/-!
# Rows, copies and the pool
-/

namespace CLF

variable {K : Type} [Field K] [LinearOrder K] [IsStrictOrderedRing K] [FloorRing K]

/-! ### The pool -/

/-- Every task is waiting, being worked on, or finished. -/
structure PoolInv {α β : Type} (f : α → Option β) (tasks : List α) (p : Pool α β) : Prop where
  length : p.results.length = tasks.length
  queue : ∀ t ∈ p.queue, tasks[t.1]? = some t.2
  workers : ∀ t, some t ∈ p.workers → tasks[t.1]? = some t.2
  task : ∀ i a, tasks[i]? = some a →
    (i, a) ∈ p.queue ∨ some (i, a) ∈ p.workers ∨ p.results[i]? = some (f a)

theorem poolInv_start {α β : Type} (f : α → Option β) (workers : ℕ) (tasks : List α) :
    PoolInv f tasks (Pool.start β workers tasks) where
  length := by simp [Pool.start]
  queue := by
    intro t ht
    simp only [Pool.start, List.mem_map] at ht
    obtain ⟨q, hq, rfl⟩ := ht
    exact List.mem_zipIdx_iff_getElem?.mp hq
  workers := by
    intro t ht
    simp [Pool.start] at ht
  task := by
    intro i a h
    refine .inl ?_
    simp only [Pool.start, List.mem_map]
    exact ⟨(a, i), List.mem_zipIdx_iff_getElem?.mpr h, rfl⟩

theorem mem_set_of_ne {α : Type} {l : List α} {i : ℕ} {x y z : α} (h : l[i]? = some x) (hy : y ∈ l)
    (hne : y ≠ x) : y ∈ l.set i z := by
  obtain ⟨k, hk, rfl⟩ := List.mem_iff_getElem.mp hy
  have : k ≠ i := by
    rintro rfl
    rw [List.getElem?_eq_getElem hk] at h
    exact hne (Option.some.inj h)
  refine List.mem_iff_getElem.mpr ⟨k, by simpa using hk, ?_⟩
  rw [List.getElem_set_ne (Ne.symm this)]

theorem poolInv_step {α β : Type} (f : α → Option β) (tasks : List α) (p : Pool α β)
    (h : PoolInv f tasks p) (w : ℕ) : PoolInv f tasks (p.step f w) := by
  unfold Pool.step
  split
  · rename_i t rest hw hq
    have hmem := List.mem_of_getElem? hw
    have hlt : w < p.workers.length := (List.getElem?_eq_some_iff.mp hw).1
    refine ⟨h.length, ?_, ?_, ?_⟩
    · intro t' ht'
      exact h.queue t' (by rw [hq]; exact List.mem_cons_of_mem _ ht')
    · intro t' ht'
      rcases List.mem_or_eq_of_mem_set ht' with hm | e
      · exact h.workers t' hm
      · obtain rfl := Option.some.inj e
        exact h.queue t' (by rw [hq]; exact List.mem_cons_self)
    · intro i a hi
      rcases h.task i a hi with hm | hm | hm
      · rw [hq] at hm
        rcases List.mem_cons.mp hm with rfl | hm
        · exact .inr (.inl (List.mem_set hlt _))
        · exact .inl hm
      · exact .inr (.inl (mem_set_of_ne hw hm (by simp)))
      · exact .inr (.inr hm)
  · rename_i i a hw
    have hmem := List.mem_of_getElem? hw
    have hia := h.workers _ hmem
    refine ⟨by simpa using h.length, h.queue, ?_, ?_⟩
    · intro t' ht'
      rcases List.mem_or_eq_of_mem_set ht' with hm | e
      · exact h.workers t' hm
      · cases e
    · intro k b hk
      by_cases e : k = i
      · subst e
        rw [hia] at hk
        obtain rfl := Option.some.inj hk
        have hlt : k < p.results.length := by
          rw [h.length]
          exact (List.getElem?_eq_some_iff.mp hia).1
        exact .inr (.inr (by simp [hlt]))
      · rcases h.task k b hk with hm | hm | hm
        · exact .inl hm
        · exact .inr (.inl (mem_set_of_ne hw hm (by simp [e])))
        · exact .inr (.inr (by rw [List.getElem?_set_ne (Ne.symm e)]; exact hm))
  · exact h

theorem poolInv_run {α β : Type} (f : α → Option β) (tasks : List α) (schedule : List ℕ) :
    ∀ p, PoolInv f tasks p → PoolInv f tasks (schedule.foldl (Pool.step f) p) := by
  induction schedule with
  | nil => exact fun p h => h
  | cons w ws ih => exact fun p h => ih _ (poolInv_step f tasks p h w)

/-- A finished pool holds the results in the order of the tasks. -/
theorem pool_done {α β : Type} (f : α → Option β) (tasks : List α) (p : Pool α β)
    (h : PoolInv f tasks p) (hd : p.done = true) : p.results = tasks.map f := by
  simp only [Pool.done, Bool.and_eq_true, List.isEmpty_iff, List.all_eq_true, Option.isNone_iff_eq_none] at hd
  refine List.ext_getElem? fun i => ?_
  rw [List.getElem?_map]
  cases e : tasks[i]? with
  | none =>
    rw [List.getElem?_eq_none_iff] at e
    exact List.getElem?_eq_none_iff.mpr (by rw [h.length]; exact e)
  | some a =>
    rcases h.task i a e with hm | hm | hm
    · rw [hd.1] at hm; simp at hm
    · have := hd.2 _ hm; cases this
    · exact hm

/-- A finished map gives the results in the order of the tasks. -/
theorem poolMap_eq {α β : Type} (f : α → Option β) (tasks : List α) (workers : ℕ) (schedule : List ℕ)
    (r : List (Option β)) (h : poolMap f tasks workers schedule = some r) : r = tasks.map f := by
  unfold poolMap at h
  simp only at h
  split at h
  · rename_i hd
    obtain rfl := Option.some.inj h
    exact pool_done f tasks _ (poolInv_run f tasks schedule _ (poolInv_start f workers tasks)) hd
  · cases h

/-- The number of steps still to be made. -/
def Pool.left {α β : Type} (p : Pool α β) : ℕ := 2 * p.queue.length + (p.workers.filter Option.isSome).length

theorem filter_set_some {α : Type} {l : List (Option α)} {w : ℕ} (h : l[w]? = some none) (t : α) :
    ((l.set w (some t)).filter Option.isSome).length = (l.filter Option.isSome).length + 1 := by
  induction l generalizing w with
  | nil => simp at h
  | cons x xs ih =>
    rcases w with _ | w
    · simp only [List.getElem?_cons_zero, Option.some.injEq] at h
      subst h
      simp
    · simp only [List.getElem?_cons_succ] at h
      have := ih h
      rw [List.set_cons_succ, List.filter_cons, List.filter_cons]
      split <;> simp [this]

theorem filter_set_none {α : Type} {l : List (Option α)} {w : ℕ} {t : α} (h : l[w]? = some (some t)) :
    ((l.set w none).filter Option.isSome).length + 1 = (l.filter Option.isSome).length := by
  induction l generalizing w with
  | nil => simp at h
  | cons x xs ih =>
    rcases w with _ | w
    · simp only [List.getElem?_cons_zero, Option.some.injEq] at h
      subst h
      simp
    · simp only [List.getElem?_cons_succ] at h
      have := ih h
      rw [List.set_cons_succ, List.filter_cons, List.filter_cons]
      split
      · simp only [List.length_cons]; omega
      · exact this

theorem pool_step_workers {α β : Type} (f : α → Option β) (p : Pool α β) (w : ℕ) :
    (p.step f w).workers.length = p.workers.length := by
  unfold Pool.step
  split <;> simp

theorem pool_step_left {α β : Type} (f : α → Option β) (p : Pool α β) (w : ℕ) :
    p.step f w = p ∨ (p.step f w).left < p.left := by
  unfold Pool.step
  split
  · rename_i t rest hw hq
    refine .inr ?_
    simp only [Pool.left, hq, List.length_cons]
    rw [filter_set_some hw]
    omega
  · rename_i i a hw
    refine .inr ?_
    simp only [Pool.left]
    have := filter_set_none hw
    omega
  · exact .inl rfl

/-- An unfinished pool has a worker that can make a step, if it has workers at all. -/
theorem pool_progress {α β : Type} (f : α → Option β) (p : Pool α β) (hw : 0 < p.workers.length)
    (hd : p.done = false) : ∃ w < p.workers.length, (p.step f w).left < p.left := by
  have key : (∃ (w : ℕ) (t : ℕ × α), p.workers[w]? = some (some t)) ∨
      ((∀ x ∈ p.workers, x = none) ∧ p.queue ≠ []) := by
    by_cases h : ∃ t, some t ∈ p.workers
    · obtain ⟨t, ht⟩ := h
      obtain ⟨w, hw, e⟩ := List.mem_iff_getElem.mp ht
      exact .inl ⟨w, t, by rw [List.getElem?_eq_getElem hw, e]⟩
    · have hall : ∀ x ∈ p.workers, x = none := by
        intro x hx
        cases x with
        | none => rfl
        | some t => exact (h ⟨t, hx⟩).elim
      refine .inr ⟨hall, fun hq => ?_⟩
      simp only [Pool.done, hq, List.isEmpty_nil, Bool.true_and, List.all_eq_false] at hd
      obtain ⟨x, hx, hn⟩ := hd
      rw [hall x hx] at hn
      simp at hn
  rcases key with ⟨w, ⟨i, a⟩, h⟩ | ⟨hall, hq⟩
  · refine ⟨w, (List.getElem?_eq_some_iff.mp h).1, ?_⟩
    unfold Pool.step
    split
    · rename_i h' _; rw [h] at h'; cases h'
    · have := filter_set_none h
      rename_i i' a' h'
      simp only [Pool.left]
      omega
    · simp_all
  · refine ⟨0, hw, ?_⟩
    obtain ⟨t, rest, hq⟩ := List.exists_cons_of_ne_nil hq
    have h0 : p.workers[0]? = some none := by
      rw [List.getElem?_eq_getElem hw, hall _ (List.getElem_mem _)]
    unfold Pool.step
    rw [h0, hq]
    simp only [Pool.left, hq, List.length_cons]
    rw [filter_set_some h0]
    omega

theorem pool_step_le {α β : Type} (f : α → Option β) (p : Pool α β) (w : ℕ) :
    (p.step f w).left ≤ p.left := by
  rcases pool_step_left f p w with h | h
  · rw [h]
  · exact h.le

theorem pool_run_le {α β : Type} (f : α → Option β) (ws : List ℕ) :
    ∀ p : Pool α β, (ws.foldl (Pool.step f) p).left ≤ p.left := by
  induction ws with
  | nil => exact fun p => le_rfl
  | cons w ws ih => exact fun p => (ih _).trans (pool_step_le f p w)

theorem pool_run_workers {α β : Type} (f : α → Option β) (ws : List ℕ) :
    ∀ p : Pool α β, (ws.foldl (Pool.step f) p).workers.length = p.workers.length := by
  induction ws with
  | nil => exact fun p => rfl
  | cons w ws ih => exact fun p => (ih _).trans (pool_step_workers f p w)

/-- A worker that can make a step and gets a turn makes one, or another one did before. -/
theorem pool_turn {α β : Type} (f : α → Option β) (ws : List ℕ) (w : ℕ) (hm : w ∈ ws) :
    ∀ p : Pool α β, (p.step f w).left < p.left → (ws.foldl (Pool.step f) p).left < p.left := by
  induction ws with
  | nil => simp at hm
  | cons v ws ih =>
    intro p hp
    rcases pool_step_left f p v with h | h
    · rcases List.mem_cons.mp hm with rfl | hm
      · rw [h] at hp; exact (lt_irrefl _ hp).elim
      · rw [List.foldl_cons, h]
        exact ih hm p hp
    · exact (pool_run_le f ws _).trans_lt h

theorem pool_left_zero {α β : Type} (p : Pool α β) (h : p.left = 0) : p.done = true := by
  unfold Pool.left at h
  have h1 : p.queue.length = 0 := by omega
  have h2 : (p.workers.filter Option.isSome).length = 0 := by omega
  rw [List.length_eq_zero_iff] at h1 h2
  rw [List.filter_eq_nil_iff] at h2
  simp only [Pool.done, h1, List.isEmpty_nil, Bool.true_and, List.all_eq_true]
  intro x hx
  have := h2 x hx
  cases x <;> simp_all

theorem pool_done_stays {α β : Type} (f : α → Option β) (p : Pool α β) (h : p.done = true) (w : ℕ) :
    p.step f w = p := by
  simp only [Pool.done, Bool.and_eq_true, List.isEmpty_iff, List.all_eq_true,
    Option.isNone_iff_eq_none] at h
  unfold Pool.step
  split
  · rename_i hq; rw [h.1] at hq; cases hq
  · rename_i hw
    have := h.2 _ (List.mem_of_getElem? hw)
    cases this
  · rfl

theorem pool_done_run {α β : Type} (f : α → Option β) (ws : List ℕ) (p : Pool α β) (h : p.done = true) :
    ws.foldl (Pool.step f) p = p := by
  induction ws with
  | nil => rfl
  | cons w ws ih => rw [List.foldl_cons, pool_done_stays f p h w, ih]

/-- Rounds in which every worker gets a turn. -/
theorem pool_rounds {α β : Type} (f : α → Option β) (rounds : List (List ℕ)) (n : ℕ) (hn : 0 < n)
    (hr : ∀ r ∈ rounds, ∀ w < n, w ∈ r) :
    ∀ p : Pool α β, p.workers.length = n → p.left ≤ rounds.length →
      (rounds.flatten.foldl (Pool.step f) p).done = true := by
  induction rounds with
  | nil =>
    intro p _ h
    exact pool_left_zero p (by simpa using h)
  | cons r rs ih =>
    intro p hp h
    rw [List.flatten_cons, List.foldl_append]
    by_cases hd : p.done = true
    · rw [pool_done_run f r p hd, pool_done_run f _ p hd, hd]
    · obtain ⟨w, hw, hlt⟩ := pool_progress f p (by omega) (by simpa using hd)
      refine ih (fun r hr' => hr r (List.mem_cons_of_mem _ hr')) _ (by rw [pool_run_workers, hp]) ?_
      have := pool_turn f r w (hr r List.mem_cons_self w (by omega)) p hlt
      simp only [List.length_cons] at h
      omega

theorem pool_start_left {α β : Type} (workers : ℕ) (tasks : List α) :
    (Pool.start β workers tasks).left = 2 * tasks.length := by
  simp [Pool.left, Pool.start]

/-! ### Progress does not depend on the tasks -/

/-- The pool without the contents of the tasks and results. -/
def Pool.shape {α β : Type} (p : Pool α β) : Pool Unit Unit where
  queue := p.queue.map fun t => (t.1, ())
  workers := p.workers.map (Option.map fun t => (t.1, ()))
  results := p.results.map fun _ => none

theorem pool_shape_step {α β : Type} (f : α → Option β) (p : Pool α β) (w : ℕ) :
    (p.step f w).shape = p.shape.step (fun _ => none) w := by
  unfold Pool.step
  cases hw : p.workers[w]? with
  | none => simp [Pool.shape, hw]
  | some x =>
    cases x with
    | none =>
      cases hq : p.queue with
      | nil => simp [Pool.shape, hw, hq]
      | cons t rest => simp [Pool.shape, hw, hq]
    | some t =>
      obtain ⟨i, a⟩ := t
      simp only [Pool.shape, List.getElem?_map, hw, Option.map_some]
      simp

theorem pool_shape_run {α β : Type} (f : α → Option β) (ws : List ℕ) :
    ∀ p : Pool α β, (ws.foldl (Pool.step f) p).shape = ws.foldl (Pool.step fun _ => none) p.shape := by
  induction ws with
  | nil => exact fun p => rfl
  | cons w ws ih => intro p; rw [List.foldl_cons, List.foldl_cons, ih, pool_shape_step]

theorem pool_shape_done {α β : Type} (p : Pool α β) : p.shape.done = p.done := by
  simp [Pool.shape, Pool.done, Function.comp_def]

theorem pool_shape_start {α : Type} (β : Type) (workers : ℕ) (tasks : List α) :
    (Pool.start β workers tasks).shape = Pool.start Unit workers (List.replicate tasks.length ()) := by
  simp only [Pool.shape, Pool.start, List.map_map, List.map_replicate, Function.comp_def, Option.map_none,
    List.length_replicate]
  congr 1
  refine List.ext_getElem? fun i => ?_
  simp only [List.getElem?_map, List.getElem?_zipIdx, List.getElem?_replicate]
  by_cases h : i < tasks.length
  · simp [h]
  · simp [h]

/-! ### Copies -/

theorem copyInto_eq (A : Arith K) (a b c v : List (Flt K)) (h : b.length = v.length) :
    copyInto A (a ++ b ++ c) a.length v.length v = .ok (a ++ v.map A.f32 ++ c) := by
  have key : ∀ (n : ℕ) (hn : n ≤ v.length),
      (List.range n).foldlM (fun out k => do
        let x ← pyGet v k
        pySet out (a.length + k) (A.f32 x)) (a ++ b ++ c)
      = (.ok (a ++ ((v.take n).map A.f32 ++ b.drop n) ++ c) : Py (List (Flt K))) := by
    intro n
    induction n with
    | zero => intro _; simp
    | succ n ih =>
      intro hn
      rw [List.range_succ, List.foldlM_append, ih (by omega), py_ok_bind]
      simp only [List.foldlM_cons, List.foldlM_nil]
      rw [show pyGet v n = .ok v[n] by simp [pyGet, show n < v.length by omega]]
      rw [py_ok_bind]
      have hb : b.drop n = b[n] :: b.drop (n + 1) := List.drop_eq_getElem_cons (by omega)
      have ht : v.take (n + 1) = v.take n ++ [v[n]] := by
        rw [List.take_add_one]; simp [show n < v.length by omega]
      rw [hb, ht]
      have hlt : (v.take n).length = n := by simp; omega
      unfold pySet
      rw [if_pos (by simp; omega)]
      rw [py_ok_bind]
      rw [py_pure]
      congr 1
      rw [List.append_assoc, List.append_assoc, List.set_append_right _ _ (by omega)]
      rw [List.append_assoc, List.set_append_right _ _ (by simp [hlt])]
      rw [List.length_map, hlt, Nat.add_sub_cancel_left, Nat.sub_self, List.cons_append, List.set_cons_zero,
        List.map_append]
      simp only [List.map_cons, List.map_nil, List.append_assoc, List.cons_append, List.nil_append]
  have := key v.length le_rfl
  rw [List.take_length, List.drop_of_length_le (by omega), List.append_nil] at this
  exact this

/-- Rows computed and copied one after another. -/
theorem copyAll_eq (A : Arith K) (f : ℕ → Py (List (Flt K))) (m : ℕ) (c : List (Flt K)) (h : ℕ) :
    ∀ (k : ℕ) (_ : ∀ i, k ≤ i → i < k + h → ∀ v, f i = .ok v → v.length = m) (a b : List (Flt K)), a.length = k * m → b.length = h * m →
    (List.range' k h).foldlM (fun out i => do
        let v ← f i
        copyInto A out (i * m) m v) (a ++ b ++ c)
      = (do
        let vs ← (List.range' k h).mapM f
        .ok (a ++ vs.flatten.map A.f32 ++ c)) := by
  induction h with
  | zero =>
    intro k hf a b ha hb
    have : b = [] := List.length_eq_zero_iff.mp (by omega)
    subst this
    simp
  | succ h ih =>
    intro k hf a b ha hb
    rw [List.range'_succ, List.foldlM_cons, py_mapM_cons]
    cases e : f k with
    | error e => rfl
    | ok v =>
      rw [py_ok_bind, py_ok_bind]
      have hv := hf k le_rfl (by omega) v e
      have hsplit : a ++ b ++ c = a ++ b.take m ++ (b.drop m ++ c) := by
        rw [List.append_assoc, List.append_assoc, ← List.append_assoc (b.take m), List.take_append_drop]
      have hbm : (h + 1) * m = h * m + m := by ring
      rw [hsplit, ← ha, ← hv, copyInto_eq A a (b.take v.length) _ v (by rw [List.length_take]; omega), py_ok_bind]
      rw [← List.append_assoc, hv]
      rw [ih (k + 1) (fun i h1 h2 => hf i (by omega) (by omega)) (a ++ v.map A.f32) (b.drop m)
        (by rw [List.length_append, List.length_map, hv, ha]; ring) (by rw [List.length_drop]; omega)]
      cases (List.range' (k + 1) h).mapM f with
      | error e => rfl
      | ok vs => simp [py_ok_bind, py_pure]

end CLF

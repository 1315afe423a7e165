import Verif.Lemmas.Loops

/-! # Computations that succeed at least as often -/

namespace CLF

/-- Every result of the first is one of the second. -/
def LeOk {σ : Type} (x y : Py σ) : Prop := ∀ a, x = .ok a → y = .ok a

theorem LeOk.rfl' {σ : Type} (x : Py σ) : LeOk x x := fun _ h => h

theorem LeOk.bind {σ τ : Type} {x y : Py σ} {f g : σ → Py τ} (h : LeOk x y)
    (hf : ∀ a, LeOk (f a) (g a)) : LeOk (x >>= f) (y >>= g) := by
  intro r hr
  obtain ⟨a, h1, h2⟩ := py_bind_eq_ok.mp hr
  exact py_bind_eq_ok.mpr ⟨a, h a h1, hf a r h2⟩

theorem LeOk.foldlM {σ α : Type} {f g : σ → α → Py σ} (l : List α)
    (h : ∀ s, ∀ a ∈ l, LeOk (f s a) (g s a)) (s : σ) : LeOk (l.foldlM f s) (l.foldlM g s) := by
  induction l generalizing s with
  | nil => exact fun _ h => h
  | cons a l ih =>
    rw [List.foldlM_cons, List.foldlM_cons]
    exact (h s a (List.mem_cons_self ..)).bind fun t =>
      ih (fun s b hb => h s b (List.mem_cons_of_mem _ hb)) t

theorem LeOk.mapM {α β : Type} {f g : α → Py β} (l : List α) (h : ∀ a ∈ l, LeOk (f a) (g a)) :
    LeOk (l.mapM f) (l.mapM g) := by
  induction l with
  | nil => exact fun _ h => h
  | cons a l ih =>
    rw [List.mapM_cons, List.mapM_cons]
    exact (h a (List.mem_cons_self ..)).bind fun t =>
      (ih fun b hb => h b (List.mem_cons_of_mem _ hb)).bind fun _ _ h => h

end CLF

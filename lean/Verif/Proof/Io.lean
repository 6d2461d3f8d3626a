import Verif.Spec.Io
/-!
# The writer's events, and reading them back
-/
namespace CE.Io

variable {A : Type}

/-- the events of an array's elements, `k` of them from `i` -/
def elems {α : Type} {cap : Nat} (w : α → List (Ev A)) (d : Fin cap → α) : Nat → Nat → List (Ev A)
  | 0, _ => []
  | k + 1, i => (if h : i < cap then w (d ⟨i, h⟩) else []) ++ elems w d k (i + 1)

/-- the events of a value -/
def events : (t : Ty) → Val A t → List (Ev A)
  | .atom, a => [.atom a]
  | .arr n t, d => .enterArray n false :: (elems (events t) d n 0 ++ [.leaveArray n false])
  | .list _ t, d => .enterArray d.1 true :: (elems (events t) d.2 d.1 0 ++ [.leaveArray d.1 true])
  | .obj m, d => .enterClass :: (events m d ++ [.leaveClass])
  | .nil, _ => []
  | .member s t r, d => .name s :: (events t d.1 ++ events r d.2)

theorem loop_write {α : Type} {cap : Nat} {f : α → List (Ev A) → Option (α × List (Ev A))} {w : α → List (Ev A)}
    (P : α → Prop) (hf : ∀ a s, P a → f a s = some (a, s ++ w a)) (d : Fin cap → α) :
    ∀ k i s, i + k ≤ cap → (∀ j : Fin cap, i ≤ j.1 → j.1 < i + k → P (d j)) →
      loop f k i d s = some (d, s ++ elems w d k i) := by
  intro k
  induction k with
  | zero => intro i s _ _; simp [loop, elems]
  | succ k ih =>
    intro i s h hp
    have hi : i < cap := by omega
    rw [loop, dif_pos hi, hf _ _ (hp ⟨i, hi⟩ (Nat.le_refl _) (by simp))]
    show loop f k (i + 1) (Function.update d ⟨i, hi⟩ (d ⟨i, hi⟩)) _ = _
    rw [Function.update_eq_self, ih (i + 1) _ (by omega) (fun j h1 h2 => hp j (by omega) (by omega)), elems, dif_pos hi,
      List.append_assoc]

theorem item_write : ∀ (t : Ty) (v : Val A t) (s : List (Ev A)), Valid t v →
    item (writer A) t v s = some (v, s ++ events t v)
  | .atom, a, s, _ => rfl
  | .arr n t, d, s, hv => by
    rw [item]
    show (do
      let r ← loop (item (writer A) t) n 0 d (s ++ [Ev.enterArray n false])
      _) = _
    rw [loop_write (w := events t) (Valid t) (fun a s h => item_write t a s h) d n 0 _ (by omega) (fun j _ _ => hv j)]
    show some (d, s ++ [Ev.enterArray n false] ++ elems (events t) d n 0 ++ [Ev.leaveArray n false]) = _
    rw [events]; simp
  | .list cap t, d, s, hv => by
    rw [item]
    show (do
      let r ← loop (item (writer A) t) d.1 0 d.2 (s ++ [Ev.enterArray d.1 true])
      _) = _
    rw [loop_write (w := events t) (Valid t) (fun a s h => item_write t a s h) d.2 d.1 0 _ (by rw [Nat.zero_add]; exact hv.1)
      (fun j _ h => hv.2 j (by omega))]
    show some ((d.1, d.2), s ++ [Ev.enterArray d.1 true] ++ elems (events t) d.2 d.1 0 ++ [Ev.leaveArray d.1 true]) = _
    rw [events]; simp; rfl
  | .obj m, d, s, hv => by
    rw [item]
    show (do
      let r ← item (writer A) m d (s ++ [Ev.enterClass])
      _) = _
    rw [item_write m d _ hv]
    show some (d, s ++ [Ev.enterClass] ++ events m d ++ [Ev.leaveClass]) = _
    rw [events]; simp
  | .nil, d, s, _ => by rw [item, events, List.append_nil]
  | .member x t r, d, s, hv => by
    rw [item]
    show (do
      let q ← item (writer A) t d.1 (s ++ [Ev.name x])
      _) = _
    rw [item_write t d.1 _ hv.1]
    show (do
      let q ← item (writer A) r d.2 (s ++ [Ev.name x] ++ events t d.1)
      _) = _
    rw [item_write r d.2 _ hv.2]
    show some ((d.1, d.2), s ++ [Ev.name x] ++ events t d.1 ++ events r d.2) = _
    rw [events]; simp; rfl

theorem elems_nest {α : Type} {cap : Nat} {w : α → List (Ev A)} (P : α → Prop) (hw : ∀ a, P a → Nest .item (w a))
    (d : Fin cap → α) : ∀ k i, i + k ≤ cap → (∀ j : Fin cap, i ≤ j.1 → j.1 < i + k → P (d j)) →
      Nest (.items k) (elems w d k i) := by
  intro k
  induction k with
  | zero => intro i _ _; exact .nil
  | succ k ih =>
    intro i h hp
    have hi : i < cap := by omega
    rw [elems, dif_pos hi]
    exact .cons (hw _ (hp ⟨i, hi⟩ (Nat.le_refl _) (by simp))) (ih (i + 1) (by omega) (fun j h1 h2 => hp j (by omega) (by omega)))

theorem events_nest : ∀ (t : Ty) (v : Val A t) (b : Bool), Proper b t → Valid t v →
    Nest (if b then .members else .item) (events t v)
  | .atom, a, false, _, _ => .atom a
  | .arr n t, d, false, h, hv => .array false (elems_nest (Valid t) (fun a ha => events_nest t a false h ha) d n 0 (by omega)
      (fun j _ _ => hv j))
  | .list cap t, d, false, h, hv => .array true (elems_nest (Valid t) (fun a ha => events_nest t a false h ha) d.2 d.1 0
      (by rw [Nat.zero_add]; exact hv.1) (fun j _ hj => hv.2 j (by omega)))
  | .obj m, d, false, h, hv => .cls (events_nest m d true h hv)
  | .nil, _, true, _, _ => .mnil
  | .member x t r, d, true, h, hv => .mcons x (events_nest t d.1 false h.1 hv.1) (events_nest r d.2 true h.2 hv.2)
  | .atom, _, true, h, _ => h.elim
  | .arr _ _, _, true, h, _ => h.elim
  | .list _ _, _, true, h, _ => h.elim
  | .obj _, _, true, h, _ => h.elim
  | .nil, _, false, h, _ => h.elim
  | .member _ _ _, _, false, h, _ => h.elim

/-- reading the elements of `d` into `u` -/
theorem loop_read {α : Type} {cap : Nat} {f : α → List (Ev A) → Option (α × List (Ev A))} {w : α → List (Ev A)}
    (P : α → Prop) (S : α → α → Prop) (hf : ∀ u a s, P a → ∃ u', f u (w a ++ s) = some (u', s) ∧ S u' a)
    (d : Fin cap → α) : ∀ k i (u : Fin cap → α) s, i + k ≤ cap → (∀ j : Fin cap, i ≤ j.1 → j.1 < i + k → P (d j)) →
      ∃ u', loop f k i u (elems w d k i ++ s) = some (u', s) ∧
        (∀ j : Fin cap, i ≤ j.1 → j.1 < i + k → S (u' j) (d j)) ∧ ∀ j : Fin cap, j.1 < i → u' j = u j := by
  intro k
  induction k with
  | zero => intro i u s _ _; exact ⟨u, rfl, fun j h1 h2 => by omega, fun _ _ => rfl⟩
  | succ k ih =>
    intro i u s h hp
    have hi : i < cap := by omega
    obtain ⟨x, hx, hs⟩ := hf (u ⟨i, hi⟩) (d ⟨i, hi⟩) (elems w d k (i + 1) ++ s) (hp ⟨i, hi⟩ (Nat.le_refl _) (by simp))
    obtain ⟨u', h1, h2, h3⟩ := ih (i + 1) (Function.update u ⟨i, hi⟩ x) s (by omega) (fun j h1 h2 => hp j (by omega) (by omega))
    refine ⟨u', ?_, fun j hj1 hj2 => ?_, fun j hj => ?_⟩
    · rw [loop, dif_pos hi, elems, dif_pos hi, List.append_assoc, hx]
      exact h1
    · by_cases hj : j.1 = i
      · have e : j = ⟨i, hi⟩ := Fin.ext hj
        rw [h3 j (by omega), e, Function.update_self]
        exact hs
      · exact h2 j (by omega) (by omega)
    · rw [h3 j (by omega), Function.update_of_ne]
      intro e
      rw [e] at hj
      exact absurd hj (by simp)

theorem item_read : ∀ (t : Ty) (u v : Val A t) (s : List (Ev A)), Valid t v →
    ∃ u', item (reader A) t u (events t v ++ s) = some (u', s) ∧ Same t u' v
  | .atom, u, v, s, _ => ⟨v, rfl, rfl⟩
  | .arr n t, u, d, s, hv => by
    obtain ⟨u', h1, h2, -⟩ := loop_read (f := item (reader A) t) (w := events t) (Valid t) (Same t)
      (fun u a s h => item_read t u a s h) d n 0 u (Ev.leaveArray n false :: s) (by omega) (fun j _ _ => hv j)
    refine ⟨u', ?_, fun i => h2 i (Nat.zero_le _) (by have := i.2; omega)⟩
    rw [item, events]
    show (do
      let r ← loop (item (reader A) t) n 0 u (elems (events t) d n 0 ++ [Ev.leaveArray n false] ++ s)
      _) = _
    rw [List.append_assoc]
    show (do
      let r ← loop (item (reader A) t) n 0 u (elems (events t) d n 0 ++ (Ev.leaveArray n false :: s))
      _) = _
    rw [h1]
    show (do
      let l ← (if n = n ∧ false = false then some (n, s) else none)
      _) = _
    rw [if_pos ⟨rfl, rfl⟩]
    rfl
  | .list cap t, u, d, s, hv => by
    obtain ⟨u', h1, h2, -⟩ := loop_read (f := item (reader A) t) (w := events t) (Valid t) (Same t)
      (fun u a s h => item_read t u a s h) d.2 d.1 0 u.2 (Ev.leaveArray d.1 true :: s) (by rw [Nat.zero_add]; exact hv.1)
      (fun j _ hj => hv.2 j (by omega))
    refine ⟨(d.1, u'), ?_, rfl, fun i hi => h2 i (Nat.zero_le _) (by rw [Nat.zero_add]; exact hi)⟩
    rw [item, events]
    show (do
      let r ← loop (item (reader A) t) d.1 0 u.2 (elems (events t) d.2 d.1 0 ++ [Ev.leaveArray d.1 true] ++ s)
      _) = _
    rw [List.append_assoc]
    show (do
      let r ← loop (item (reader A) t) d.1 0 u.2 (elems (events t) d.2 d.1 0 ++ (Ev.leaveArray d.1 true :: s))
      _) = _
    rw [h1]
    show (do
      let l ← (if d.1 = d.1 ∧ true = true then some (d.1, s) else none)
      _) = _
    rw [if_pos ⟨rfl, rfl⟩]
    rfl
  | .obj m, u, d, s, hv => by
    obtain ⟨u', h1, h2⟩ := item_read m u d (Ev.leaveClass :: s) hv
    refine ⟨u', ?_, h2⟩
    rw [item, events]
    show (do
      let r ← item (reader A) m u (events m d ++ [Ev.leaveClass] ++ s)
      _) = _
    rw [List.append_assoc]
    show (do
      let r ← item (reader A) m u (events m d ++ (Ev.leaveClass :: s))
      _) = _
    rw [h1]
    rfl
  | .nil, u, _, s, _ => ⟨u, rfl, trivial⟩
  | .member x t r, u, d, s, hv => by
    obtain ⟨u1, h1, h2⟩ := item_read t u.1 d.1 (events r d.2 ++ s) hv.1
    obtain ⟨u2, h3, h4⟩ := item_read r u.2 d.2 s hv.2
    refine ⟨(u1, u2), ?_, h2, h4⟩
    rw [item, events]
    show (do
      let s1 ← (if x = x then some (events t d.1 ++ events r d.2 ++ s) else none)
      _) = _
    rw [if_pos rfl]
    show (do
      let q ← item (reader A) t u.1 (events t d.1 ++ events r d.2 ++ s)
      _) = _
    rw [List.append_assoc, h1]
    show (do
      let q ← item (reader A) r u.2 (events r d.2 ++ s)
      _) = _
    rw [h3]
    rfl

theorem same_symm : ∀ (t : Ty) (a b : Val A t), Same t a b → Same t b a
  | .atom, _, _, h => Eq.symm h
  | .arr _ t, _, _, h => fun i => same_symm t _ _ (h i)
  | .list _ t, _, _, h => ⟨h.1.symm, fun i hi => same_symm t _ _ (h.2 i (by rw [h.1]; exact hi))⟩
  | .obj m, a, b, h => same_symm m a b h
  | .nil, _, _, _ => trivial
  | .member _ t r, _, _, h => ⟨same_symm t _ _ h.1, same_symm r _ _ h.2⟩

theorem same_trans : ∀ (t : Ty) (a b c : Val A t), Same t a b → Same t b c → Same t a c
  | .atom, _, _, _, h, g => Eq.trans h g
  | .arr _ t, _, _, _, h, g => fun i => same_trans t _ _ _ (h i) (g i)
  | .list _ t, _, _, _, h, g => ⟨h.1.trans g.1, fun i hi => same_trans t _ _ _ (h.2 i hi) (g.2 i (by rw [← h.1]; exact hi))⟩
  | .obj m, a, b, c, h, g => same_trans m a b c h g
  | .nil, _, _, _, _, _ => trivial
  | .member _ t r, _, _, _, h, g => ⟨same_trans t _ _ _ h.1 g.1, same_trans r _ _ _ h.2 g.2⟩

end CE.Io

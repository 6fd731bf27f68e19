import Verif.Graph.Spec
import Verif.Serialize.Lemmas

/-!
# C170: linked objects are written and read
-/

namespace Verif.Graph

open Serialize

/-! ### Heaps that grow -/

theorem at_append {h e : Heap} : ∀ (path : List Nat) (p : Ptr), (∀ x a, obj h p x = some a → a < h.length) → at_ (h ++ e) p path = at_ h p path := by
  intro path
  induction path with
  | nil => intro p _; cases p <;> rfl
  | cons i is ih =>
    intro p hp
    cases p with
    | none => rfl
    | some a =>
      have ha : a < h.length := hp [] a rfl
      simp only [at_, List.getElem?_append_left ha]
      cases hn : h[a]? with
      | none => rfl
      | some n =>
        simp only
        cases hk : n.kids[i]? with
        | none => rfl
        | some q =>
          simp only
          refine ih q fun x b hb => hp (i :: x) b ?_
          simpa only [obj, at_, hn, hk] using hb

theorem obj_append {h e : Heap} {p : Ptr} (hp : ∀ x a, obj h p x = some a → a < h.length) (path : List Nat) : obj (h ++ e) p path = obj h p path := by
  simp only [obj, at_append path p hp]

theorem look_append {h e : Heap} {p : Ptr} (hp : ∀ x a, obj h p x = some a → a < h.length) (path : List Nat) : look (h ++ e) p path = look h p path := by
  simp only [look, at_append path p hp]
  cases ha : at_ h p path with
  | none => rfl
  | some q =>
    cases q with
    | none => rfl
    | some a =>
      have : a < h.length := hp path a (by simp [obj, ha])
      simp only [List.getElem?_append_left this]

theorem at_cons {h : Heap} {a : Nat} {n : Node} {i : Nat} {q : Ptr} (hn : h[a]? = some n) (hk : n.kids[i]? = some q) (is : List Nat) :
    at_ h (some a) (i :: is) = at_ h q is := by
  simp only [at_, hn, hk]

theorem at_cons_none {h : Heap} {a : Nat} {n : Node} {i : Nat} (hn : h[a]? = some n) (hk : n.kids[i]? = none) (is : List Nat) :
    at_ h (some a) (i :: is) = none := by
  simp only [at_, hn, hk]

/-! ### What has been read -/

/-- What was read (`p'` in `c'`, after `c`) looks like `p` in `h`, is made of new objects, and shares nothing. -/
structure Copy (h : Heap) (p : Ptr) (c c' : Heap) (p' : Ptr) (n : Nat) : Prop where
  grows : ∃ e, c' = c ++ e
  count : c'.length = c.length + n
  same : ∀ x, look c' p' x = look h p x
  new : ∀ x a, obj c' p' x = some a → c.length ≤ a ∧ a < c'.length
  inj : Unshared c' p'

structure Copies (h : Heap) (ks : List Ptr) (c c' : Heap) (ks' : List Ptr) (n : Nat) : Prop where
  grows : ∃ e, c' = c ++ e
  count : c'.length = c.length + n
  len : ks'.length = ks.length
  same : ∀ (i : Nat) k k', ks[i]? = some k → ks'[i]? = some k' → ∀ x, look c' k' x = look h k x
  new : ∀ (i : Nat) k', ks'[i]? = some k' → ∀ x a, obj c' k' x = some a → c.length ≤ a ∧ a < c'.length
  inj : ∀ (i j : Nat) k l, ks'[i]? = some k → ks'[j]? = some l → ∀ x y a, obj c' k x = some a → obj c' l y = some a → i = j ∧ x = y

theorem copies_cons {h c c1 c2 : Heap} {k k' : Ptr} {ks ks' : List Ptr} {m n : Nat} (h1 : Copy h k c c1 k' m) (h2 : Copies h ks c1 c2 ks' n) :
    Copies h (k :: ks) c c2 (k' :: ks') (m + n) := by
  obtain ⟨e1, rfl⟩ := h1.grows
  obtain ⟨e2, rfl⟩ := h2.grows
  have hlt : ∀ x a, obj (c ++ e1) k' x = some a → a < (c ++ e1).length := fun x a hx => (h1.new x a hx).2
  refine ⟨⟨e1 ++ e2, by rw [List.append_assoc]⟩, by rw [h2.count, h1.count]; omega, by simp [h2.len], ?_, ?_, ?_⟩
  · intro i q q' hq hq' x
    cases i with
    | zero =>
      simp only [List.getElem?_cons_zero, Option.some.injEq] at hq hq'
      subst hq hq'
      rw [look_append hlt, h1.same]
    | succ i =>
      simp only [List.getElem?_cons_succ] at hq hq'
      exact h2.same i q q' hq hq' x
  · intro i q' hq' x a hx
    have hl1 := h1.count
    have hl2 := h2.count
    cases i with
    | zero =>
      simp only [List.getElem?_cons_zero, Option.some.injEq] at hq'
      subst hq'
      rw [obj_append hlt] at hx
      have := h1.new x a hx
      omega
    | succ i =>
      simp only [List.getElem?_cons_succ] at hq'
      have := h2.new i q' hq' x a hx
      omega
  · intro i j q l hq hl x y a hx hy
    cases i with
    | zero =>
      simp only [List.getElem?_cons_zero, Option.some.injEq] at hq
      subst hq
      rw [obj_append hlt] at hx
      cases j with
      | zero =>
        simp only [List.getElem?_cons_zero, Option.some.injEq] at hl
        subst hl
        rw [obj_append hlt] at hy
        exact ⟨rfl, h1.inj x y a hx hy⟩
      | succ j =>
        simp only [List.getElem?_cons_succ] at hl
        have := (h1.new x a hx).2
        have := (h2.new j l hl y a hy).1
        omega
    | succ i =>
      simp only [List.getElem?_cons_succ] at hq
      cases j with
      | zero =>
        simp only [List.getElem?_cons_zero, Option.some.injEq] at hl
        subst hl
        rw [obj_append hlt] at hy
        have := (h1.new y a hy).2
        have := (h2.new i q hq x a hx).1
        omega
      | succ j =>
        simp only [List.getElem?_cons_succ] at hl
        obtain ⟨rfl, r⟩ := h2.inj i j q l hq hl x y a hx hy
        exact ⟨rfl, r⟩

theorem copy_node {h c c' : Heap} {a : Nat} {n : Node} {ks' : List Ptr} {m : Nat} (hn : h[a]? = some n) (hk : Copies h n.kids c c' ks' m) :
    Copy h (some a) c (c' ++ [⟨n.value, ks'⟩]) (some c'.length) (m + 1) := by
  obtain ⟨e, rfl⟩ := hk.grows
  have hlast : ((c ++ e) ++ [(⟨n.value, ks'⟩ : Node)])[(c ++ e).length]? = some ⟨n.value, ks'⟩ := by
    rw [List.getElem?_append_right (Nat.le_refl _)]; simp
  have hlt : ∀ i k', ks'[i]? = some k' → ∀ x b, obj (c ++ e) k' x = some b → b < (c ++ e).length := fun i k' hk' x b hx => (hk.new i k' hk' x b hx).2
  have hobj : ∀ i x, obj ((c ++ e) ++ [⟨n.value, ks'⟩]) (some (c ++ e).length) (i :: x) =
      (match ks'[i]? with | none => none | some k' => obj (c ++ e) k' x) := by
    intro i x
    cases hk' : ks'[i]? with
    | none => simp only [obj, at_cons_none hlast (show (⟨n.value, ks'⟩ : Node).kids[i]? = none from hk')]; rfl
    | some k' =>
      simp only
      rw [← obj_append (e := [⟨n.value, ks'⟩]) (hlt i k' hk'), obj, obj, at_cons hlast (show (⟨n.value, ks'⟩ : Node).kids[i]? = some k' from hk')]
  refine ⟨⟨e ++ [⟨n.value, ks'⟩], by rw [List.append_assoc]⟩, by rw [List.length_append, hk.count]; simp; omega, ?_, ?_, ?_⟩
  · intro x
    cases x with
    | nil => simp only [look, at_, hlast, hn, Option.map_some, hk.len]
    | cons i x =>
      cases hk' : ks'[i]? with
      | none =>
        have hk0 : n.kids[i]? = none := by
          rw [List.getElem?_eq_none_iff] at hk' ⊢; rw [← hk.len]; exact hk'
        simp only [look, at_cons_none hlast (show (⟨n.value, ks'⟩ : Node).kids[i]? = none from hk'), at_cons_none hn hk0]
      | some k' =>
        obtain ⟨k, hk0⟩ : ∃ k, n.kids[i]? = some k := by
          have : i < n.kids.length := by
            rw [← hk.len]; exact (List.getElem?_eq_some_iff.1 hk').1
          exact ⟨_, List.getElem?_eq_getElem this⟩
        have h1 := hk.same i k k' hk0 hk' x
        rw [← look_append (e := [⟨n.value, ks'⟩]) (hlt i k' hk')] at h1
        simp only [look, at_cons hlast (show (⟨n.value, ks'⟩ : Node).kids[i]? = some k' from hk'), at_cons hn hk0] at h1 ⊢
        exact h1
  · intro x b hx
    have hc := hk.count
    cases x with
    | nil =>
      simp only [obj, at_, Option.join_some, Option.some.injEq] at hx
      subst hx
      simp
    | cons i x =>
      rw [hobj] at hx
      cases hk' : ks'[i]? with
      | none => simp only [hk'] at hx; cases hx
      | some k' =>
        simp only [hk'] at hx
        have := hk.new i k' hk' x b hx
        simp only [List.length_append, List.length_singleton] at this ⊢
        omega
  · intro x y b hx hy
    have inner : ∀ i x, obj ((c ++ e) ++ [⟨n.value, ks'⟩]) (some (c ++ e).length) (i :: x) = some b → b < (c ++ e).length := by
      intro i x hx
      rw [hobj] at hx
      cases hk' : ks'[i]? with
      | none => simp only [hk'] at hx; cases hx
      | some k' => simp only [hk'] at hx; exact hlt i k' hk' x b hx
    have outer : obj ((c ++ e) ++ [⟨n.value, ks'⟩]) (some (c ++ e).length) [] = some b → b = (c ++ e).length := by
      intro hx
      simp only [obj, at_, Option.join_some, Option.some.injEq] at hx
      exact hx.symm
    cases x with
    | nil =>
      cases y with
      | nil => rfl
      | cons j y => have := outer hx; have := inner j y hy; omega
    | cons i x =>
      cases y with
      | nil => have := outer hy; have := inner i x hx; omega
      | cons j y =>
        rw [hobj] at hx hy
        cases hk' : ks'[i]? with
        | none => simp only [hk'] at hx; cases hx
        | some k' =>
          cases hl' : ks'[j]? with
          | none => simp only [hl'] at hy; cases hy
          | some l' =>
            simp only [hk'] at hx
            simp only [hl'] at hy
            obtain ⟨rfl, rfl⟩ := hk.inj i j k' l' hk' hl' x y b hx hy
            rfl

/-! ### Writing and reading -/

/-- What is written for `p`, with a stack for `w` objects, is read as a copy of it. -/
def Trip (h : Heap) (cap d : Nat) (p : Ptr) : Prop :=
  ∃ bs, (∀ w, d ≤ w → writePtr h w p = .ok bs) ∧ ∀ r, d ≤ r → ∀ c rest, ∃ c' p', readPtr cap r c (bs ++ rest) = .ok (p', c', rest) ∧
    Copy h p c c' p' (paths h d p)

theorem readRaw_append {σ : Type} {n : Nat} {bs rest : List UInt8} (hb : bs.length = n) (c : σ) :
    readRaw n c (bs ++ rest) = .ok (bs, c, rest) := by
  unfold readRaw
  rw [if_neg (by simp; omega)]
  simp [← hb]

theorem readSize_append {σ : Type} {n : Nat} {rest : List UInt8} (hn : n < 2 ^ 64) (c : σ) :
    readSize c (leBytes 8 n ++ rest) = .ok (n, c, rest) := by
  unfold readSize
  rw [Rd.bind_def, readRaw_append (by simp)]
  simp only [Rd.pure_def]
  rw [leVal_leBytes 8 n (by norm_num at hn ⊢; exact hn)]

theorem trip_kids {h : Heap} {cap d : Nat} : ∀ (ks : List Ptr), (∀ k ∈ ks, Trip h cap d k) →
    ∃ bs, (∀ w, d ≤ w → writeKids (writePtr h w) ks = .ok bs) ∧ ∀ r, d ≤ r → ∀ c rest, ∃ c' ks',
      readKids (readPtr cap r) ks.length c (bs ++ rest) = .ok (ks', c', rest) ∧ Copies h ks c c' ks' (ks.map (paths h d)).sum := by
  intro ks
  induction ks with
  | nil =>
    intro _
    refine ⟨[], fun _ _ => rfl, fun r _ c rest => ⟨c, [], rfl, ⟨⟨[], by simp⟩, rfl, rfl, ?_, ?_, ?_⟩⟩⟩
    · intro i k k' hk; simp at hk
    · intro i k' hk; simp at hk
    · intro i j k l hk; simp at hk
  | cons k ks ih =>
    intro hk
    obtain ⟨b1, w1, r1⟩ := hk k (List.mem_cons_self ..)
    obtain ⟨b2, w2, r2⟩ := ih fun q hq => hk q (List.mem_cons_of_mem _ hq)
    refine ⟨b1 ++ b2, ?_, ?_⟩
    · intro w hw
      simp only [writeKids, w1 w hw, w2 w hw, Res.ok_bind]
    · intro r hr c rest
      obtain ⟨c1, p1, e1, g1⟩ := r1 r hr c (b2 ++ rest)
      obtain ⟨c2, p2, e2, g2⟩ := r2 r hr c1 rest
      refine ⟨c2, p1 :: p2, ?_, ?_⟩
      · simp only [List.length_cons, readKids]
        rw [Rd.bind_def, List.append_assoc, e1]
        simp only
        rw [Rd.bind_def, e2]
        rfl
      · simp only [List.map_cons, List.sum_cons]
        exact copies_cons g1 g2

theorem readPtr_null (cap r : Nat) (c : Heap) (rest : List UInt8) : readPtr cap r c (0 :: rest) = .ok (none, c, rest) := by
  cases r <;> (simp only [readPtr]; rw [Rd.bind_def, show (0 :: rest : List UInt8) = [0] ++ rest from rfl, readRaw_append (n := 1) rfl]; rfl)

theorem trip {h : Heap} {cap : Nat} : ∀ (d : Nat) (p : Ptr), Fits h cap d p → Trip h cap d p := by
  intro d
  have null : ∀ d, Trip h cap d none := by
    intro d
    refine ⟨[0], fun w _ => by cases w <;> rfl, fun r _ c rest => ⟨c, none, readPtr_null cap r c rest, ⟨⟨[], by simp⟩, ?_, ?_, ?_, ?_⟩⟩⟩
    · cases d <;> rfl
    · intro x; cases x <;> rfl
    · intro x a hx; cases x <;> cases hx
    · intro x y a hx; cases x <;> cases hx
  induction d with
  | zero =>
    intro p hp
    cases p with
    | none => exact null 0
    | some a => exact hp.elim
  | succ d ih =>
    intro p hp
    cases p with
    | none => exact null (d + 1)
    | some a =>
      obtain ⟨n, hn, hv, hl, hcap, hk⟩ := hp
      obtain ⟨bs, w1, r1⟩ := trip_kids n.kids fun k hk' => ih k (hk k hk')
      refine ⟨1 :: (leBytes 4 n.value ++ (leBytes 8 n.kids.length ++ bs)), ?_, ?_⟩
      · intro w hw
        obtain ⟨w, rfl⟩ : ∃ w', w = w' + 1 := ⟨w - 1, by omega⟩
        simp only [writePtr, hn, w1 w (by omega), Res.ok_bind]
      · intro r hr c rest
        obtain ⟨r, rfl⟩ : ∃ r', r = r' + 1 := ⟨r - 1, by omega⟩
        obtain ⟨c', ks', e1, g1⟩ := r1 r (by omega) c rest
        refine ⟨c' ++ [⟨n.value, ks'⟩], some c'.length, ?_, ?_⟩
        · have e0 : (1 :: (leBytes 4 n.value ++ (leBytes 8 n.kids.length ++ bs))) ++ rest =
              [1] ++ (leBytes 4 n.value ++ (leBytes 8 n.kids.length ++ (bs ++ rest))) := by simp
          simp only [readPtr]
          rw [Rd.bind_def, e0, readRaw_append (n := 1) rfl]
          simp only
          rw [if_neg (by decide), Rd.bind_def, readRaw_append (by simp)]
          simp only
          rw [Rd.bind_def, readSize_append hl]
          simp only
          rw [if_neg (by omega), Rd.bind_def, e1]
          simp only [alloc]
          rw [leVal_leBytes 4 n.value (by norm_num at hv ⊢; exact hv)]
        · simp only [paths, hn]
          exact copy_node hn g1

/-- **C170**, what holds: objects that are linked without cycles, not deeper than the stack has room for (and whose sizes fit), are written and read back, and what is read looks the same to
whoever starts at the pointer and follows others: the same values and null pointers at the end of every path.  It is made of as many objects as there are paths.
Missing: what was shared is not, see `c170_sharing_violated`; cycles, `c170_cycle_violated`; deep structures, `c170_deep_violated`. -/
theorem c170_read_back_partial (h : Heap) (cap d : Nat) (p : Ptr) (hf : Fits h cap d p) (w r : Nat) (hw : d ≤ w) (hr : d ≤ r) :
    ∃ bs, writePtr h w p = .ok bs ∧ ∀ rest, ∃ h' p', readPtr cap r [] (bs ++ rest) = .ok (p', h', rest) ∧
      (∀ path, look h' p' path = look h p path) ∧ h'.length = paths h d p ∧ Unshared h' p' := by
  obtain ⟨bs, h1, h2⟩ := trip d p hf
  refine ⟨bs, h1 w hw, fun rest => ?_⟩
  obtain ⟨h', p', e, g⟩ := h2 r hr [] rest
  exact ⟨h', p', e, g.same, by simpa using g.count, g.inj⟩

/-- A list of three elements and a tree. -/
example : Fits [⟨7, []⟩, ⟨8, [some 0]⟩, ⟨9, [none, some 1, some 0]⟩] 10 3 (some 2) := by simp [Fits]

/-- **C170 is violated** by what is shared: whenever two pointers of an object point to the same object, those of the object that is read point to different ones. -/
theorem c170_sharing_violated (h : Heap) (cap d : Nat) (a : Nat) (hf : Fits h cap d (some a)) (n : Node) (hn : h[a]? = some n) (i j b : Nat) (hij : i ≠ j)
    (hi : n.kids[i]? = some (some b)) (hj : n.kids[j]? = some (some b)) :
    ∃ bs h' p', writePtr h d (some a) = .ok bs ∧ readPtr cap d [] bs = .ok (p', h', []) ∧
      ∃ x y, obj h' p' [i] = some x ∧ obj h' p' [j] = some y ∧ x ≠ y := by
  obtain ⟨bs, h1, h2⟩ := c170_read_back_partial h cap d (some a) hf d d (Nat.le_refl _) (Nat.le_refl _)
  obtain ⟨h', p', e, hs, _, hu⟩ := h2 []
  rw [List.append_nil] at e
  have hb : ∃ m, h[b]? = some m := by
    cases d with
    | zero => exact hf.elim
    | succ d =>
      obtain ⟨n', hn', _, _, _, hk⟩ := hf
      rw [hn] at hn'; cases hn'
      have := hk (some b) (List.mem_of_getElem? hi)
      cases d with
      | zero => exact this.elim
      | succ d => obtain ⟨m, hm, _⟩ := this; exact ⟨m, hm⟩
  obtain ⟨m, hm⟩ := hb
  have key : ∀ i, n.kids[i]? = some (some b) → ∃ x, obj h' p' [i] = some x := by
    intro i hi
    have hr : look h (some a) [i] = some (some (m.value, m.kids.length)) := by
      rw [look, at_cons hn hi]; simp only [at_, hm, Option.map_some]
    have := hs [i]
    rw [hr, look] at this
    unfold obj
    split at this
    · cases this
    · cases this
    · next x hx => exact ⟨x, by rw [hx]; rfl⟩
  obtain ⟨x, hx⟩ := key i hi
  obtain ⟨y, hy⟩ := key j hj
  refine ⟨bs, h', p', h1, e, x, y, hx, hy, fun hxy => hij ?_⟩
  subst hxy
  have := hu [i] [j] x hx hy
  simpa using this

example : Fits [⟨7, []⟩, ⟨8, [some 0, some 0]⟩] 10 2 (some 1) := by simp [Fits]

/-! ### Cycles -/

/-- All paths end. -/
def Ends (h : Heap) : Nat → Ptr → Prop
  | _, none => True
  | 0, some _ => False
  | d + 1, some a => ∃ n, h[a]? = some n ∧ ∀ k ∈ n.kids, Ends h d k

theorem writeKids_ub {wr : Ptr → Res (List UInt8)} (hw : ∀ k, (∃ bs, wr k = .ok bs) ∨ wr k = .ub) : ∀ (ks : List Ptr) (k : Ptr), k ∈ ks → wr k = .ub → writeKids wr ks = .ub := by
  intro ks
  induction ks with
  | nil => intro k hk; cases hk
  | cons q qs ih =>
    intro k hk hu
    simp only [writeKids]
    rcases hw q with ⟨bs, hq⟩ | hq
    · rw [hq]
      rcases List.mem_cons.1 hk with rfl | hk
      · rw [hu] at hq; cases hq
      · rw [Res.ok_bind, ih k hk hu]; rfl
    · rw [hq]; rfl

theorem writeKids_ok {wr : Ptr → Res (List UInt8)} : ∀ (ks : List Ptr), (∀ k ∈ ks, ∃ bs, wr k = .ok bs) → ∃ bs, writeKids wr ks = .ok bs := by
  intro ks
  induction ks with
  | nil => intro _; exact ⟨[], rfl⟩
  | cons q qs ih =>
    intro h
    obtain ⟨a, ha⟩ := h q (List.mem_cons_self ..)
    obtain ⟨b, hb⟩ := ih fun k hk => h k (List.mem_cons_of_mem _ hk)
    exact ⟨a ++ b, by simp only [writeKids, ha, hb, Res.ok_bind]⟩

theorem write_or_ub (h : Heap) : ∀ (w : Nat) (p : Ptr), (Ends h w p ∧ ∃ bs, writePtr h w p = .ok bs) ∨ (¬ Ends h w p ∧ writePtr h w p = .ub) := by
  intro w
  induction w with
  | zero =>
    intro p
    cases p with
    | none => exact Or.inl ⟨trivial, _, rfl⟩
    | some a => exact Or.inr ⟨id, rfl⟩
  | succ w ih =>
    intro p
    cases p with
    | none => exact Or.inl ⟨trivial, _, rfl⟩
    | some a =>
      cases hn : h[a]? with
      | none => refine Or.inr ⟨?_, by simp only [writePtr, hn]⟩; rintro ⟨n, hn', _⟩; rw [hn] at hn'; cases hn'
      | some n =>
        by_cases hk : ∀ k ∈ n.kids, Ends h w k
        · refine Or.inl ⟨⟨n, hn, hk⟩, ?_⟩
          obtain ⟨bs, hb⟩ := writeKids_ok (wr := writePtr h w) n.kids fun k hk' => by
            rcases ih k with h1 | h1
            · exact h1.2
            · exact (h1.1 (hk k hk')).elim
          exact ⟨1 :: (leBytes 4 n.value ++ (leBytes 8 n.kids.length ++ bs)), by simp only [writePtr, hn, hb, Res.ok_bind]⟩
        · refine Or.inr ⟨?_, ?_⟩
          · rintro ⟨n', hn', hk'⟩; rw [hn] at hn'; cases hn'; exact hk hk'
          · simp only [not_forall] at hk
            obtain ⟨k, hk1, hk2⟩ := hk
            have hu : writePtr h w k = .ub := by
              rcases ih k with h1 | h1
              · exact (hk2 h1.1).elim
              · exact h1.2
            have : writeKids (writePtr h w) n.kids = .ub := writeKids_ub (fun q => by
              rcases ih q with h1 | h1
              · exact Or.inl h1.2
              · exact Or.inr h1.2) n.kids k hk1 hu
            simp only [writePtr, hn, this]
            rfl

/-- Whatever there is room for on the stack, objects are written exactly if all paths from the pointer end within it. -/
theorem c170_written (h : Heap) (w : Nat) (p : Ptr) : ((∃ bs, writePtr h w p = .ok bs) ↔ Ends h w p) ∧ (writePtr h w p = .ub ↔ ¬ Ends h w p) := by
  rcases write_or_ub h w p with ⟨h1, bs, h2⟩ | ⟨h1, h2⟩
  · exact ⟨⟨fun _ => h1, fun _ => ⟨bs, h2⟩⟩, ⟨fun h3 => (by rw [h2] at h3; cases h3), fun h3 => (h3 h1).elim⟩⟩
  · exact ⟨⟨fun ⟨bs, h3⟩ => (by rw [h2] at h3; cases h3), fun h3 => (h1 h3).elim⟩, ⟨fun _ => h1, fun _ => h2⟩⟩

/-- **C170 is violated** by cycles: if an object can be reached from itself, nothing is written, the stack overflows, whatever there is room for. -/
theorem c170_cycle_violated (h : Heap) (a i : Nat) (path : List Nat) (hc : at_ h (some a) (i :: path) = some (some a)) (w : Nat) :
    writePtr h w (some a) = .ub := by
  rw [(c170_written h w (some a)).2]
  have step : ∀ (x : List Nat) (w : Nat) (p : Ptr) (b : Nat), Ends h w p → at_ h p x = some (some b) → x.length ≤ w ∧ Ends h (w - x.length) (some b) := by
    intro x
    induction x with
    | nil =>
      intro w p b he hx
      cases p <;> (simp only [at_, Option.some.injEq] at hx)
      · cases hx
      · subst hx; exact ⟨by simp, he⟩
    | cons j x ih =>
      intro w p b he hx
      cases p with
      | none => cases hx
      | some q =>
        cases w with
        | zero => exact he.elim
        | succ w =>
          obtain ⟨n, hn, hk⟩ := he
          cases hj : n.kids[j]? with
          | none => rw [at_cons_none hn hj] at hx; cases hx
          | some k =>
            rw [at_cons hn hj] at hx
            obtain ⟨h1, h2⟩ := ih w k b (hk k (List.mem_of_getElem? hj)) hx
            refine ⟨by simp; omega, ?_⟩
            rw [List.length_cons, show w + 1 - (x.length + 1) = w - x.length by omega]
            exact h2
  intro he
  have loop : ∀ w, Ends h w (some a) → False := by
    intro w
    induction w using Nat.strongRecOn with
    | ind w ih =>
      intro he
      obtain ⟨h1, h2⟩ := step (i :: path) w (some a) a he hc
      simp only [List.length_cons] at h1 h2
      exact ih _ (by omega) h2
  exact loop w he

example : at_ [⟨7, [none, some 1]⟩, ⟨8, [some 0]⟩] (some 0) [1, 0] = some (some 0) := by decide

/-! ### Sizes -/

/-- `n + 1` objects; each but the first has two pointers to the one before. -/
def twice : Nat → Heap
  | 0 => [⟨0, []⟩]
  | n + 1 => twice n ++ [⟨0, [some n, some n]⟩]

theorem twice_length (n : Nat) : (twice n).length = n + 1 := by
  induction n with
  | zero => rfl
  | succ n ih => simp [twice, ih]

theorem twice_get (n i : Nat) (h : i < n) : (twice n)[i + 1]? = some ⟨0, [some i, some i]⟩ ∧ (twice n)[0]? = some ⟨0, []⟩ := by
  induction n with
  | zero => omega
  | succ n ih =>
    have hl := twice_length n
    have h0 : ∀ n, (twice n)[0]? = some ⟨0, []⟩ := by
      intro n
      induction n with
      | zero => rfl
      | succ n ih => rw [twice, List.getElem?_append_left (by rw [twice_length]; omega), ih]
    refine ⟨?_, h0 _⟩
    by_cases hi : i < n
    · rw [twice, List.getElem?_append_left (by omega)]; exact (ih hi).1
    · obtain rfl : i = n := by omega
      rw [twice, List.getElem?_append_right (by omega), hl]; simp

/-- **C170 is violated** by what is shared, in its size too: of `n + 1` objects more than `2 ^ n` bytes are written, and `2 ^ (n + 1) - 1` objects are read. -/
theorem c170_size_violated (n : Nat) : (twice n).length = n + 1 ∧ ∃ bs, writePtr (twice n) (n + 1) (some n) = .ok bs ∧ 2 ^ n < bs.length ∧
    ∃ h' p', readPtr 2 (n + 1) [] bs = .ok (p', h', []) ∧ h'.length + 1 = 2 ^ (n + 1) := by
  refine ⟨twice_length n, ?_⟩
  have fits : ∀ i, i ≤ n → Fits (twice n) 2 (i + 1) (some i) ∧ paths (twice n) (i + 1) (some i) + 1 = 2 ^ (i + 1) ∧
      ∀ bs, writePtr (twice n) (i + 1) (some i) = .ok bs → 2 ^ i < bs.length := by
    intro i
    induction i with
    | zero =>
      intro _
      have h0 : (twice n)[0]? = some ⟨0, []⟩ := by
        cases n with
        | zero => rfl
        | succ n => exact (twice_get (n + 1) 0 (by omega)).2
      refine ⟨⟨_, h0, by decide, by simp, by simp, by simp⟩, by simp [paths, h0], ?_⟩
      intro bs hb
      simp only [writePtr, h0, writeKids, Res.ok_bind, Res.ok.injEq] at hb
      subst hb; simp
    | succ i ih =>
      intro hi
      obtain ⟨f1, f2, f3⟩ := ih (by omega)
      have hg := (twice_get n i (by omega)).1
      refine ⟨⟨_, hg, by show 0 < 2 ^ 32; decide, by simp, by simp, ?_⟩, ?_, ?_⟩
      · intro k hk
        simp only [List.mem_cons, List.not_mem_nil, or_false, or_self] at hk
        subst hk; exact f1
      · rw [paths, hg]
        simp only [List.map_cons, List.map_nil, List.sum_cons, List.sum_nil]
        rw [Nat.pow_succ]; omega
      · intro bs hb
        obtain ⟨b, hb1, _⟩ := trip _ _ f1
        have hb2 := hb1 (i + 1) (Nat.le_refl _)
        have := f3 b hb2
        rw [writePtr, hg] at hb
        simp only [writeKids, hb2, Res.ok_bind, Res.ok.injEq] at hb
        subst hb
        simp only [List.length_cons, List.length_append, List.length_nil]
        rw [Nat.pow_succ]; omega
  obtain ⟨f1, f2, f3⟩ := fits n (Nat.le_refl _)
  obtain ⟨bs, h1, h2⟩ := c170_read_back_partial (twice n) 2 (n + 1) (some n) f1 _ _ (Nat.le_refl _) (Nat.le_refl _)
  obtain ⟨h', p', e, _, hl, _⟩ := h2 []
  rw [List.append_nil] at e
  exact ⟨bs, h1, f3 bs h1, h', p', e, by rw [hl]; exact f2⟩

/-- The begin of an object that has one pointer. -/
def open_ : List UInt8 := 1 :: (leBytes 4 0 ++ leBytes 8 1)

/-- **C170 is violated** by data that is nested more deeply than the stack has room for: whatever that is, there is a file of a few bytes for each level that overflows it. -/
theorem c170_deep_violated (cap : Nat) (hcap : 1 ≤ cap) (r : Nat) (c : Heap) : ∃ bs, bs.length = 13 * r + 1 ∧ readPtr cap r c bs = .ub := by
  refine ⟨(List.replicate r open_).flatten ++ [1], by simp [open_, Nat.mul_comm], ?_⟩
  induction r with
  | zero =>
    simp only [readPtr]
    rw [Rd.bind_def, show (List.replicate 0 open_).flatten ++ [1] = ([1] ++ [] : List UInt8) from rfl, readRaw_append (n := 1) rfl]
    rfl
  | succ r ih =>
    have e0 : (List.replicate (r + 1) open_).flatten ++ [1] =
        [1] ++ (leBytes 4 0 ++ (leBytes 8 1 ++ ((List.replicate r open_).flatten ++ [1]))) := by
      simp [List.replicate_succ, open_]
    simp only [readPtr]
    rw [Rd.bind_def, e0, readRaw_append (n := 1) rfl]
    simp only
    rw [if_neg (by decide), Rd.bind_def, readRaw_append (by simp)]
    simp only
    rw [Rd.bind_def, readSize_append (by decide)]
    simp only
    rw [if_neg (by omega), Rd.bind_def]
    simp only [readKids]
    rw [Rd.bind_def, ih]

end Verif.Graph

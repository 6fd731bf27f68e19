import Verif.Storage.ConcSpec
import Verif.Storage.Lemmas

/-! # Lemmas for C156 -/

namespace Verif.Storage.Conc

variable {next : Next} {fmt : Format (List UInt8)} {m : Mem} {fs : Nat → Files}

theorem valueAfter_snoc (m : Mem) (ls : List Label) (l : Label) :
    valueAfter m (ls ++ [l]) = match l with | .write _ a b => fun x => if x = a then b else valueAfter m ls x | _ => valueAfter m ls := by
  rw [valueAfter, List.foldl_append]; rfl

theorem changing_snoc (ls : List Label) (l : Label) :
    changing (ls ++ [l]) = match l with | .lock i => some i | .unlock _ => none | _ => changing ls := by
  rw [changing, List.foldl_append]; rfl

theorem ioOf_append (j : Nat) (as bs : List Label) : ioOf j (as ++ bs) = ioOf j as ++ ioOf j bs := List.filterMap_append ..

/-- The thread has the mutex. -/
def Phase.holds : Phase → Prop
  | .measuring _ | .copying _ => True
  | _ => False

/-- What has been read so far. -/
def Phase.seen : Phase → List UInt8
  | .measuring xs | .copying xs => xs
  | _ => []

structure Inv (next : Next) (m : Mem) (fs : Nat → Files) (ls : List Label) (s : State) : Prop where
  mem : s.mem = valueAfter m ls
  user : ∀ i, s.owner = some (.user i) ↔ changing ls = some i
  saver : ∀ j, s.owner = some (.saver j) ↔ (s.phase j).holds
  reads : ∀ j, Reads next s.mem (s.phase j).seen
  files : ∀ j, s.files j = exec (ioOf j ls) (fs j)

theorem goto_phase (s : State) (j : Nat) (p : Phase) (k : Nat) : (s.goto j p).phase k = if k = j then p else s.phase k := rfl

/-- A thread goes on and does not take or give the mutex. -/
theorem Inv.goto {ls : List Label} {s : State} (h : Inv next m fs ls s) {l : Label} {j : Nat} {p : Phase} (hp : (s.phase j).holds ↔ p.holds)
    (hr : Reads next s.mem p.seen) (h1 : valueAfter m (ls ++ [l]) = valueAfter m ls) (h2 : changing (ls ++ [l]) = changing ls)
    (h3 : ∀ k, ioOf k (ls ++ [l]) = ioOf k ls) : Inv next m fs (ls ++ [l]) (s.goto j p) where
  mem := by rw [h1]; exact h.mem
  user i := by rw [h2]; exact h.user i
  saver k := by
    rw [goto_phase]
    split
    · rename_i e; subst e; rw [← hp]; exact h.saver k
    · exact h.saver k
  reads k := by
    rw [goto_phase]
    split
    · exact hr
    · exact h.reads k
  files k := by rw [h3]; exact h.files k

theorem ioOf_other (ls : List Label) (l : Label) (h : ∀ j p, l ≠ .io j p) (k : Nat) : ioOf k (ls ++ [l]) = ioOf k ls := by
  rw [ioOf_append]
  cases l <;> first | exact List.append_nil _ | exact absurd rfl (h _ _)

theorem seen_nil {p : Phase} (h : ¬ p.holds) : p.seen = [] := by
  cases p <;> first | rfl | exact absurd trivial h

theorem Inv.step {ls : List Label} {s s' : State} {l : Label} (h : Inv next m fs ls s) (hs : step next fmt s l = some s') :
    Inv next m fs (ls ++ [l]) s' := by
  have hno : ∀ k, s.owner = none → ¬ (s.phase k).holds := fun k ho hk => by
    rw [(h.saver k).2 hk] at ho; cases ho
  have hnu : ∀ i k, s.owner = some (.user i) → ¬ (s.phase k).holds := fun i k ho hk => by
    rw [(h.saver k).2 hk] at ho; cases ho
  cases l with
  | lock i =>
    simp only [Conc.step] at hs
    split at hs
    case isFalse => cases hs
    case isTrue ho =>
    cases hs
    refine ⟨by rw [valueAfter_snoc]; exact h.mem, fun i' => ?_, fun k => ?_, h.reads, fun k => ?_⟩
    · rw [changing_snoc]; simp [State.give]
    · constructor
      · intro e; cases e
      · intro e; exact absurd e (hno k ho)
    · rw [ioOf_other _ _ (by simp)]; exact h.files k
  | write i a b =>
    simp only [Conc.step] at hs
    split at hs
    case isFalse => cases hs
    case isTrue ho =>
    cases hs
    refine ⟨by rw [valueAfter_snoc, ← h.mem]; rfl, fun i' => by rw [changing_snoc]; exact h.user i', h.saver, fun k => ?_, fun k => ?_⟩
    · show Reads next _ (s.phase k).seen
      rw [seen_nil (hnu i k ho)]; exact .nil
    · rw [ioOf_other _ _ (by simp)]; exact h.files k
  | unlock i =>
    simp only [Conc.step] at hs
    split at hs
    case isFalse => cases hs
    case isTrue ho =>
    cases hs
    refine ⟨by rw [valueAfter_snoc]; exact h.mem, fun i' => ?_, fun k => ?_, h.reads, fun k => ?_⟩
    · rw [changing_snoc]; simp [State.give]
    · constructor
      · intro e; cases e
      · intro e; exact absurd e (hnu i k ho)
    · rw [ioOf_other _ _ (by simp)]; exact h.files k
  | call j =>
    simp only [Conc.step] at hs
    split at hs
    case isFalse => cases hs
    case isTrue ho =>
    cases hs
    exact h.goto (by rw [ho]; simp [Phase.holds]) .nil (valueAfter_snoc ..) (changing_snoc ..) (ioOf_other _ _ (by simp))
  | acquire j =>
    simp only [Conc.step] at hs
    split at hs
    case isFalse => cases hs
    case isTrue ho =>
    cases hs
    refine ⟨by rw [valueAfter_snoc]; exact h.mem, fun i' => ?_, fun k => ?_, fun k => ?_, fun k => ?_⟩
    · rw [changing_snoc]
      have := h.user i'
      rw [ho.2] at this
      simp only [State.give]
      constructor
      · intro e; cases e
      · intro e; exact absurd (this.2 e) (by simp)
    · show (some (Who.saver j) = some (.saver k)) ↔ ((s.goto j (.measuring [])).phase k).holds
      rw [goto_phase]
      by_cases e : k = j
      · subst e; simp [Phase.holds]
      · rw [if_neg e]
        constructor
        · intro h; cases h; exact absurd rfl e
        · intro h; exact absurd h (hno k ho.2)
    · show Reads next s.mem ((s.goto j (.measuring [])).phase k).seen
      rw [goto_phase]
      split
      · exact .nil
      · exact h.reads k
    · rw [ioOf_other _ _ (by simp)]; exact h.files k
  | look j =>
    simp only [Conc.step] at hs
    split at hs
    case h_2 => cases hs
    case h_1 xs hx =>
    split at hs
    case h_2 => cases hs
    case h_1 a ha =>
    cases hs
    have hr := h.reads j
    rw [hx] at hr
    exact h.goto (by rw [hx]; simp [Phase.holds]) (.more hr ha) (valueAfter_snoc ..) (changing_snoc ..) (ioOf_other _ _ (by simp))
  | measured j =>
    simp only [Conc.step] at hs
    split at hs
    case h_2 => cases hs
    case h_1 xs hx =>
    split at hs
    case isFalse => cases hs
    case isTrue ha =>
    cases hs
    exact h.goto (by rw [hx]; simp [Phase.holds]) .nil (valueAfter_snoc ..) (changing_snoc ..) (ioOf_other _ _ (by simp))
  | read j =>
    simp only [Conc.step] at hs
    split at hs
    case h_2 => cases hs
    case h_1 xs hx =>
    split at hs
    case h_2 => cases hs
    case h_1 a ha =>
    cases hs
    have hr := h.reads j
    rw [hx] at hr
    exact h.goto (by rw [hx]; simp [Phase.holds]) (.more hr ha) (valueAfter_snoc ..) (changing_snoc ..) (ioOf_other _ _ (by simp))
  | release j =>
    simp only [Conc.step] at hs
    split at hs
    case h_2 => cases hs
    case h_1 xs hx =>
    split at hs
    case isFalse => cases hs
    case isTrue ha =>
    cases hs
    exact giveUp h (by rw [hx]; trivial) (by simp [Phase.holds]) (valueAfter_snoc ..) (changing_snoc ..) (ioOf_other _ _ (by simp))
  | io j p =>
    simp only [Conc.step] at hs
    split at hs
    case h_2 => cases hs
    case h_1 q rest hx =>
    split at hs
    case isFalse => cases hs
    case isTrue hq =>
    cases hs
    refine ⟨by rw [valueAfter_snoc]; exact h.mem, fun i => by rw [changing_snoc]; exact h.user i, fun k => ?_, fun k => ?_, fun k => ?_⟩
    · show s.owner = _ ↔ ((s.goto j (.writing rest)).phase k).holds
      rw [goto_phase]
      split
      · rename_i e; subst e; rw [h.saver k, hx]; simp [Phase.holds]
      · exact h.saver k
    · show Reads next s.mem ((s.goto j (.writing rest)).phase k).seen
      rw [goto_phase]
      split
      · exact .nil
      · exact h.reads k
    · show (if k = j then (s.files k).step p else s.files k) = _
      rw [ioOf_append, exec_append, ← h.files k]
      by_cases e : k = j
      · subst e; rw [if_pos rfl]; simp [ioOf, exec]
      · have e' : ¬ j = k := fun h => e h.symm
        rw [if_neg e]; simp [ioOf, exec, e']
  | ret j =>
    simp only [Conc.step] at hs
    split at hs
    case isFalse => cases hs
    case isTrue ho =>
    cases hs
    exact h.goto (by rw [ho]; simp [Phase.holds]) .nil (valueAfter_snoc ..) (changing_snoc ..) (ioOf_other _ _ (by simp))
  | fail j =>
    simp only [Conc.step] at hs
    split at hs
    · cases hs
    · rename_i xs hx
      cases hs
      exact giveUp h (by rw [hx]; trivial) (by simp [Phase.holds]) (valueAfter_snoc ..) (changing_snoc ..) (ioOf_other _ _ (by simp))
    · rename_i xs hx
      cases hs
      exact giveUp h (by rw [hx]; trivial) (by simp [Phase.holds]) (valueAfter_snoc ..) (changing_snoc ..) (ioOf_other _ _ (by simp))
    · rename_i h1 h2 h3
      cases hs
      refine h.goto ?_ .nil (valueAfter_snoc ..) (changing_snoc ..) (ioOf_other _ _ (by simp))
      cases hx : s.phase j with
      | measuring xs => exact absurd hx (h2 xs)
      | copying xs => exact absurd hx (h3 xs)
      | _ => simp [Phase.holds]
where
  /-- A thread that has the mutex gives it back. -/
  giveUp {ls : List Label} {s : State} (h : Inv next m fs ls s) {l : Label} {j : Nat} {p : Phase} (hj : (s.phase j).holds) (hp : ¬ p.holds)
      (h1 : valueAfter m (ls ++ [l]) = valueAfter m ls) (h2 : changing (ls ++ [l]) = changing ls)
      (h3 : ∀ k, ioOf k (ls ++ [l]) = ioOf k ls) : Inv next m fs (ls ++ [l]) ((s.goto j p).give none) := by
    have ho := (h.saver j).2 hj
    refine ⟨by rw [h1]; exact h.mem, fun i => ?_, fun k => ?_, fun k => ?_, fun k => by rw [h3]; exact h.files k⟩
    · rw [h2, ← h.user i, ho]
      constructor <;> intro e <;> cases e
    · show (none : Option Who) = some (.saver k) ↔ ((s.goto j p).phase k).holds
      rw [goto_phase]
      constructor
      · intro e; cases e
      · intro e
        split at e
        · exact absurd e hp
        · rename_i hk
          have := (h.saver k).2 e
          rw [ho] at this
          cases this
          exact absurd rfl hk
    · show Reads next s.mem ((s.goto j p).phase k).seen
      rw [goto_phase]
      split
      · rw [seen_nil hp]; exact .nil
      · exact h.reads k

theorem Exec.inv {ls : List Label} {s : State} (h : Exec next fmt m fs ls s) : Inv next m fs ls s := by
  induction h with
  | start => exact ⟨rfl, fun i => by simp [init, changing], fun j => by simp [init, Phase.holds], fun j => .nil, fun j => rfl⟩
  | more _ hs ih => exact ih.step hs

/-- What is known of the last call of `Save`. -/
inductive Call (next : Next) (fmt : Format (List UInt8)) (m : Mem) (j : Nat) (ls1 ls2 : List Label) : Phase → Prop
  | before {p} (hp : p = .wants ∨ p.holds) (hio : ioOf j ls2 = []) (hr : .ret j ∉ ls2) : Call next fmt m j ls1 ls2 p
  | writing {rest xs} (hx : SeenDuring next m j ls1 ls2 xs) (hio : ioOf j ls2 ++ rest = save fmt xs) (hr : .ret j ∉ ls2) :
    Call next fmt m j ls1 ls2 (.writing rest)
  | failed (hio : ioOf j ls2 = []) (hr : .ret j ∉ ls2) : Call next fmt m j ls1 ls2 .idle
  | ended {xs} (hx : SeenDuring next m j ls1 ls2 xs) (hio : ioOf j ls2 <+: save fmt xs) (hr : .ret j ∈ ls2 → ioOf j ls2 = save fmt xs) :
    Call next fmt m j ls1 ls2 .idle

theorem SeenDuring.more {j : Nat} {ls1 ls2 : List Label} {xs : List UInt8} (h : SeenDuring next m j ls1 ls2 xs) (l : Label) :
    SeenDuring next m j ls1 (ls2 ++ [l]) xs := by
  obtain ⟨a, b, e, h1⟩ := h
  exact ⟨a, b ++ [l], by rw [e, List.append_assoc], h1⟩

/-- A step that the thread does not take part in. -/
theorem Call.other {j : Nat} {ls1 ls2 : List Label} {p : Phase} (h : Call next fmt m j ls1 ls2 p) {l : Label}
    (h1 : ioOf j (ls2 ++ [l]) = ioOf j ls2) (h2 : l ≠ .ret j) : Call next fmt m j ls1 (ls2 ++ [l]) p := by
  have hr : .ret j ∈ ls2 ++ [l] ↔ .ret j ∈ ls2 := by
    simp [h2.symm]
  cases h with
  | before hp hio hr' => exact .before hp (by rw [h1, hio]) (by rw [hr]; exact hr')
  | writing hx hio hr' => exact .writing (hx.more l) (by rw [h1, hio]) (by rw [hr]; exact hr')
  | failed hio hr' => exact .failed (by rw [h1, hio]) (by rw [hr]; exact hr')
  | ended hx hio hr' => exact .ended (hx.more l) (by rw [h1]; exact hio) (by rw [hr, h1]; exact hr')

theorem Exec.call {ls : List Label} {s : State} (h : Exec next fmt m fs ls s) (j : Nat) (ls1 ls2 : List Label)
    (he : ls = ls1 ++ .call j :: ls2) (hn : .call j ∉ ls2) : Call next fmt m j ls1 ls2 (s.phase j) := by
  induction h generalizing ls2 with
  | start => simp at he
  | @more ls s l s' hex hs ih =>
    have hinv := hex.inv
    rcases List.eq_nil_or_concat ls2 with rfl | ⟨ls2, l', rfl⟩
    · have := List.append_inj' he rfl
      obtain ⟨rfl, hl⟩ := this
      cases hl
      simp only [step] at hs
      split at hs
      case isFalse => cases hs
      cases hs
      rw [goto_phase, if_pos rfl]
      exact .before (.inl rfl) rfl (by simp)
    · rw [List.concat_eq_append] at he hn ⊢
      rw [← List.cons_append, ← List.append_assoc] at he
      obtain ⟨rfl, hl⟩ := List.append_inj' he rfl
      cases hl
      have ihc := ih ls2 rfl (fun hm => hn (List.mem_append_left _ hm))
      have hlc : l ≠ .call j := fun e => hn (by simp [e])
      clear ih hn
      cases l with
      | lock i =>
        simp only [step] at hs
        split at hs
        case isFalse => cases hs
        cases hs; exact ihc.other (ioOf_other _ _ (by simp) j) (by simp)
      | write i a b =>
        simp only [step] at hs
        split at hs
        case isFalse => cases hs
        cases hs; exact ihc.other (ioOf_other _ _ (by simp) j) (by simp)
      | unlock i =>
        simp only [step] at hs
        split at hs
        case isFalse => cases hs
        cases hs; exact ihc.other (ioOf_other _ _ (by simp) j) (by simp)
      | call k =>
        simp only [step] at hs
        split at hs
        case isFalse => cases hs
        cases hs
        have hk : ¬ j = k := fun e => hlc (by rw [e])
        rw [goto_phase, if_neg hk]
        exact ihc.other (ioOf_other _ _ (by simp) j) (by simp)
      | acquire k =>
        simp only [step] at hs
        split at hs
        case isFalse => cases hs
        rename_i ho
        cases hs
        have ihc' := ihc.other (l := .acquire k) (ioOf_other _ _ (by simp) j) (by simp)
        show Call next fmt m j ls1 _ ((s.goto k (.measuring [])).phase j)
        rw [goto_phase]
        split
        · rename_i e; subst e
          rw [ho.1] at ihc'
          cases ihc' with
          | before hp hio hr => exact .before (.inr trivial) hio hr
        · exact ihc'
      | look k =>
        have ihc' := ihc.other (l := .look k) (ioOf_other _ _ (by simp) j) (by simp)
        simp only [step] at hs
        split at hs
        case h_2 => cases hs
        case h_1 xs hx =>
        split at hs
        case h_2 => cases hs
        case h_1 a ha =>
        cases hs
        rw [goto_phase]
        split
        · rename_i e; subst e
          rw [hx] at ihc'
          cases ihc' with
          | before hp hio hr => exact .before (.inr trivial) hio hr
        · exact ihc'
      | measured k =>
        have ihc' := ihc.other (l := .measured k) (ioOf_other _ _ (by simp) j) (by simp)
        simp only [step] at hs
        split at hs
        case h_2 => cases hs
        case h_1 xs hx =>
        split at hs
        case isFalse => cases hs
        cases hs
        rw [goto_phase]
        split
        · rename_i e; subst e
          rw [hx] at ihc'
          cases ihc' with
          | before hp hio hr => exact .before (.inr trivial) hio hr
        · exact ihc'
      | read k =>
        have ihc' := ihc.other (l := .read k) (ioOf_other _ _ (by simp) j) (by simp)
        simp only [step] at hs
        split at hs
        case h_2 => cases hs
        case h_1 xs hx =>
        split at hs
        case h_2 => cases hs
        case h_1 a ha =>
        cases hs
        rw [goto_phase]
        split
        · rename_i e; subst e
          rw [hx] at ihc'
          cases ihc' with
          | before hp hio hr => exact .before (.inr trivial) hio hr
        · exact ihc'
      | release k =>
        have ihc' := ihc.other (l := .release k) (ioOf_other _ _ (by simp) j) (by simp)
        simp only [step] at hs
        split at hs
        case h_2 => cases hs
        case h_1 xs hx =>
        split at hs
        case isFalse => cases hs
        case isTrue ha =>
        cases hs
        show Call next fmt m j ls1 _ ((s.goto k (.writing (save fmt xs))).phase j)
        rw [goto_phase]
        split
        · rename_i e; subst e
          have hr := hinv.reads j
          have ho := (hinv.saver j).2 (by rw [hx]; trivial)
          rw [hx] at ihc' hr ihc
          cases ihc' with
          | before hp hio hr' =>
            refine .writing ⟨ls2, [.release j], rfl, ?_, ⟨?_, ha⟩, ?_⟩ (by rw [hio]; rfl) hr'
            · cases hc : changing (ls1 ++ .call j :: ls2) with
              | none => rfl
              | some i =>
                have := (hinv.user i).2 hc
                rw [ho] at this; cases this
            · rw [← hinv.mem]; exact hr
            · cases ihc with
              | before _ hio' _ => exact hio'
        · exact ihc'
      | io k p =>
        simp only [step] at hs
        split at hs
        case h_2 => cases hs
        case h_1 q rest hx =>
        split at hs
        case isFalse => cases hs
        case isTrue hq =>
        cases hs
        show Call next fmt m j ls1 _ ((s.goto k (.writing rest)).phase j)
        rw [goto_phase]
        split
        · rename_i e; subst e
          subst hq
          rw [hx] at ihc
          have hi : ioOf j (ls2 ++ [.io j q]) = ioOf j ls2 ++ [q] := by rw [ioOf_append]; simp [ioOf]
          cases ihc with
          | before hp _ _ =>
            rcases hp with hp | hp
            · cases hp
            · exact absurd hp (by simp [Phase.holds])
          | writing hs' hio hr => exact .writing (hs'.more _) (by rw [hi, List.append_assoc]; exact hio) (by simpa using hr)
        · rename_i e
          refine ihc.other ?_ (by simp)
          have e' : ¬ k = j := fun h => e h.symm
          rw [ioOf_append]; simp [ioOf, e']
      | ret k =>
        simp only [step] at hs
        split at hs
        case isFalse => cases hs
        case isTrue hx =>
        cases hs
        rw [goto_phase]
        split
        · rename_i e; subst e
          rw [hx] at ihc
          have hi := ioOf_other ls2 (.ret j) (by simp) j
          cases ihc with
          | before hp _ _ =>
            rcases hp with hp | hp
            · cases hp
            · exact absurd hp (by simp [Phase.holds])
          | writing hs' hio hr =>
            rw [List.append_nil] at hio
            exact .ended (hs'.more _) (by rw [hi, hio]; exact List.prefix_rfl) (fun _ => by rw [hi, hio])
        · rename_i e
          exact ihc.other (ioOf_other _ _ (by simp) j) (by intro h; cases h; exact e rfl)
      | fail k =>
        have ihc' := ihc.other (l := .fail k) (ioOf_other _ _ (by simp) j) (by simp)
        have key : Call next fmt m j ls1 (ls2 ++ [.fail k]) ((s.goto k .idle).phase j) := by
          rw [goto_phase]
          split
          · rename_i e; subst e
            generalize s.phase j = p at ihc'
            cases ihc' with
            | before hp hio hr => exact .failed hio hr
            | writing hx hio hr => exact .ended hx ⟨_, hio⟩ (fun h => absurd h hr)
            | failed hio hr => exact .failed hio hr
            | ended hx hio hr => exact .ended hx hio hr
          · exact ihc'
        simp only [step] at hs
        split at hs
        · cases hs
        · cases hs; exact key
        · cases hs; exact key
        · cases hs; exact key

theorem Reads.prefix {mm : Mem} {xs ys : List UInt8} (h : Reads next mm xs) (hw : Whole next mm ys) : xs <+: ys := by
  induction h with
  | nil => exact List.nil_prefix
  | @more xs a hx ha ih =>
    obtain ⟨t, ht⟩ := ih
    cases t with
    | nil => rw [List.append_nil] at ht; rw [ht, hw.2] at ha; cases ha
    | cons y t =>
      have key : ∀ zs, Reads next mm zs → ∀ y t, xs ++ y :: t = zs → y = mm a := by
        intro zs hz
        induction hz with
        | nil => intro y t e; simp at e
        | @more zs b hz hb ih =>
          intro y t e
          rcases List.eq_nil_or_concat t with rfl | ⟨t, y', rfl⟩
          · obtain ⟨rfl, e2⟩ := List.append_inj' e rfl
            cases e2
            rw [ha] at hb; cases hb; rfl
          · rw [List.concat_eq_append, ← List.cons_append, ← List.append_assoc] at e
            exact ih y t (List.append_inj' e rfl).1
      have hy := key ys hw.1 y t ht
      exact ⟨t, by rw [← ht, hy, List.append_assoc]; rfl⟩

theorem finish_copy (j : Nat) (n : Nat) (ls : List Label) (s : State) (h : Exec next fmt m fs ls s) (xs ys : List UInt8)
    (hw : Whole next (valueAfter m ls) ys) (hp : s.phase j = .copying xs) (hl : ys.length - xs.length = n) :
    ∃ ls' s', (∀ l ∈ ls', inside j l = true) ∧ Exec next fmt m fs (ls ++ ls') s' ∧ s'.owner = none ∧ s'.phase j = .writing (save fmt ys) := by
  induction n generalizing ls s xs with
  | zero =>
    have hr := h.inv.reads j
    rw [hp, h.inv.mem] at hr
    change Reads next _ xs at hr
    have hpre := hr.prefix hw
    have e : xs = ys := hpre.eq_of_length_le (by omega)
    subst e
    refine ⟨[.release j], (s.goto j (.writing (save fmt xs))).give none, by simp [inside], .more h ?_, rfl, ?_⟩
    · simp only [step, hp, hw.2, if_true]
    · show (s.goto j _).phase j = _
      rw [goto_phase, if_pos rfl]
  | succ n ih =>
    have hr := h.inv.reads j
    rw [hp, h.inv.mem] at hr
    change Reads next _ xs at hr
    cases ha : next xs with
    | none =>
      obtain ⟨t, ht⟩ := Reads.prefix hw.1 ⟨hr, ha⟩
      have : ys.length ≤ xs.length := by rw [← ht]; simp
      omega
    | some a =>
      have hs : step next fmt s (.read j) = some (s.goto j (.copying (xs ++ [s.mem a]))) := by simp only [step, hp, ha]
      obtain ⟨ls', s', h1, h2, h3⟩ := ih (ls ++ [.read j]) _ (.more h hs) (xs ++ [s.mem a]) (by rw [valueAfter_snoc]; exact hw)
        (by rw [goto_phase, if_pos rfl]) (by rw [List.length_append]; simp; omega)
      refine ⟨.read j :: ls', s', ?_, by rw [List.append_assoc] at h2; exact h2, h3⟩
      intro l hl
      rcases List.mem_cons.1 hl with rfl | hl
      · simp [inside]
      · exact h1 l hl

theorem finish_measure (j : Nat) (n : Nat) (ls : List Label) (s : State) (h : Exec next fmt m fs ls s) (xs ys : List UInt8)
    (hw : Whole next (valueAfter m ls) ys) (hp : s.phase j = .measuring xs) (hl : ys.length - xs.length = n) :
    ∃ ls' s', (∀ l ∈ ls', inside j l = true) ∧ Exec next fmt m fs (ls ++ ls') s' ∧ s'.owner = none ∧ s'.phase j = .writing (save fmt ys) := by
  induction n generalizing ls s xs with
  | zero =>
    have hr := h.inv.reads j
    rw [hp, h.inv.mem] at hr
    change Reads next _ xs at hr
    have hpre := hr.prefix hw
    have e : xs = ys := hpre.eq_of_length_le (by omega)
    subst e
    have hs : step next fmt s (.measured j) = some (s.goto j (.copying [])) := by simp only [step, hp, hw.2, if_true]
    obtain ⟨ls', s', h1, h2, h3⟩ := finish_copy j _ (ls ++ [.measured j]) _ (.more h hs) [] xs (by rw [valueAfter_snoc]; exact hw)
      (by rw [goto_phase, if_pos rfl]) rfl
    refine ⟨.measured j :: ls', s', ?_, by rw [List.append_assoc] at h2; exact h2, h3⟩
    intro l hl
    rcases List.mem_cons.1 hl with rfl | hl
    · simp [inside]
    · exact h1 l hl
  | succ n ih =>
    have hr := h.inv.reads j
    rw [hp, h.inv.mem] at hr
    change Reads next _ xs at hr
    cases ha : next xs with
    | none =>
      obtain ⟨t, ht⟩ := Reads.prefix hw.1 ⟨hr, ha⟩
      have : ys.length ≤ xs.length := by rw [← ht]; simp
      omega
    | some a =>
      have hs : step next fmt s (.look j) = some (s.goto j (.measuring (xs ++ [s.mem a]))) := by simp only [step, hp, ha]
      obtain ⟨ls', s', h1, h2, h3⟩ := ih (ls ++ [.look j]) _ (.more h hs) (xs ++ [s.mem a]) (by rw [valueAfter_snoc]; exact hw)
        (by rw [goto_phase, if_pos rfl]) (by rw [List.length_append]; simp; omega)
      refine ⟨.look j :: ls', s', ?_, by rw [List.append_assoc] at h2; exact h2, h3⟩
      intro l hl
      rcases List.mem_cons.1 hl with rfl | hl
      · simp [inside]
      · exact h1 l hl

end Verif.Storage.Conc

import Verif.Storage.ConcLemmas
import Verif.Storage.Props

/-! # C156: saving with a mutex while other threads change the value -/

namespace Verif.Storage.Conc

variable {next : Next} {fmt : Format (List UInt8)} {m : Mem} {fs : Nat → Files}

/-- What a call of `Save` writes is the program of a save of a value that was there during the call when nobody was changing it, up to
where it has come; when the call returns all of it was written. -/
theorem c156_call (ls1 ls2 : List Label) (j : Nat) (s : State) (h : Exec next fmt m fs (ls1 ++ .call j :: ls2) s) (hn : .call j ∉ ls2) :
    (ioOf j ls2 = [] ∧ .ret j ∉ ls2) ∨
    ∃ xs, SeenDuring next m j ls1 ls2 xs ∧ ioOf j ls2 <+: save fmt xs ∧ (.ret j ∈ ls2 → ioOf j ls2 = save fmt xs) := by
  have hc := h.call j ls1 ls2 rfl hn
  generalize s.phase j = p at hc
  cases hc with
  | before _ hio hr => exact .inl ⟨hio, hr⟩
  | writing hx hio hr => exact .inr ⟨_, hx, ⟨_, hio⟩, fun h => absurd h hr⟩
  | failed hio hr => exact .inl ⟨hio, hr⟩
  | ended hx hio hr => exact .inr ⟨_, hx, hio, hr⟩

/-- A `Save` that returned left a value in the file that was there during the call when nobody was changing it. -/
theorem c156_saved (ls1 ls2 : List Label) (j : Nat) (s : State) (h : Exec next fmt m fs (ls1 ++ .call j :: ls2) s) (hn : .call j ∉ ls2)
    (hr : .ret j ∈ ls2) :
    ∃ xs, SeenDuring next m j ls1 ls2 xs ∧ (s.files j).master.cur = fmt.enc xs ∧ (s.files j).backup.cur = [] := by
  rcases c156_call ls1 ls2 j s h hn with ⟨_, hr'⟩ | ⟨xs, hx, _, hw⟩
  · exact absurd hr hr'
  · refine ⟨xs, hx, ?_⟩
    have hi : ioOf j (ls1 ++ .call j :: ls2) = ioOf j ls1 ++ ioOf j ls2 := by rw [ioOf_append]; rfl
    rw [h.inv.files j, hi, exec_append, hw hr, exec_save]
    exact ⟨rfl, rfl⟩

/-- The process stops at any moment while threads save and change the value: what is loaded then is what would have been loaded when the
call began, or a value that was there during the call when nobody was changing it. -/
theorem c156_crash (P : List UInt8 → Prop) (hg : fmt.Good P) (hP : ∀ m xs, Whole next m xs → P xs) (K : Crash) (hK : Detects fmt K)
    (ls1 ls2 : List Label) (j : Nat) (s1 s : State) (c : Bytes) (h1 : Exec next fmt m fs ls1 s1) (hc : Clean (s1.files j) c)
    (h : Exec next fmt m fs (ls1 ++ .call j :: ls2) s) (hn : .call j ∉ ls2) (cm cb : Bytes)
    (hm : K.Torn (s.files j).master.hist cm) (hb : K.Torn (s.files j).backup.hist cb) (old : List UInt8) :
    answer fmt old cm cb = answer fmt old c [] ∨ ∃ xs, SeenDuring next m j ls1 ls2 xs ∧ answer fmt old cm cb = (xs, .ok true) := by
  have hi : ioOf j (ls1 ++ .call j :: ls2) = ioOf j ls1 ++ ioOf j ls2 := by rw [ioOf_append]; rfl
  have hf : s.files j = exec (ioOf j ls2) (s1.files j) := by
    rw [h.inv.files j, hi, exec_append, ← h1.inv.files j]
  rcases c156_call ls1 ls2 j s h hn with ⟨h0, _⟩ | ⟨xs, hx, ⟨t, ht⟩, _⟩
  · left
    rw [hf, h0] at hm hb
    obtain ⟨_, e2, _, e4⟩ := hc
    have hm' : K.Torn [c] cm := by rw [← e2]; exact hm
    have hb' : K.Torn [[]] cb := by rw [← e4]; exact hb
    rw [K.synced hm', K.synced hb']
  · have hw : P xs := by
      obtain ⟨_, _, _, _, hw, _⟩ := hx
      exact hP _ _ hw
    have htk : ioOf j ls2 = (save fmt xs).take (ioOf j ls2).length := by rw [← ht, List.take_left]
    rw [hf, htk] at hm hb
    rcases c43_save_atomic fmt P hg K hK (s1.files j) c hc xs hw _ cm cb ⟨hm, hb⟩ old with h | h
    · exact .inl h
    · exact .inr ⟨xs, hx, h⟩

/-- The mutex is held by `Save` only while it reads the value: not while it waits, not while it uses the files, and not after it returned
or threw; and by one thread at a time. -/
theorem c156_held (ls : List Label) (s : State) (h : Exec next fmt m fs ls s) (j : Nat) (hj : s.owner = some (.saver j)) :
    changing ls = none ∧ (∃ xs, Reads next (valueAfter m ls) xs ∧ (s.phase j = .measuring xs ∨ s.phase j = .copying xs)) ∧
      ∀ k, k ≠ j → ∀ xs, s.phase k ≠ .measuring xs ∧ s.phase k ≠ .copying xs := by
  have hi := h.inv
  refine ⟨?_, ?_, fun k hk xs => ?_⟩
  · cases hc : changing ls with
    | none => rfl
    | some i =>
      have := (hi.user i).2 hc
      rw [hj] at this; cases this
  · have hh := (hi.saver j).1 hj
    have hr := hi.reads j
    rw [hi.mem] at hr
    cases hp : s.phase j with
    | measuring xs => rw [hp] at hr; exact ⟨xs, hr, .inl rfl⟩
    | copying xs => rw [hp] at hr; exact ⟨xs, hr, .inr rfl⟩
    | _ => rw [hp] at hh; exact absurd hh (by simp [Phase.holds])
  · have : ¬ (s.phase k).holds := fun hh => by
      have := (hi.saver k).2 hh
      rw [hj] at this; cases this; exact hk rfl
    constructor <;> intro e <;> rw [e] at this <;> exact this trivial

/-- Who waits for the mutex held by `Save` waits for its reading of the value only: it gives the mutex back after steps that need nobody
else, and goes on to save the value as it is. -/
theorem c156_gives_back (ls : List Label) (s : State) (h : Exec next fmt m fs ls s) (j : Nat) (hj : s.owner = some (.saver j)) (ys : List UInt8)
    (hw : Whole next (valueAfter m ls) ys) :
    ∃ ls' s', (∀ l ∈ ls', inside j l = true) ∧ Exec next fmt m fs (ls ++ ls') s' ∧ s'.owner = none ∧ s'.phase j = .writing (save fmt ys) := by
  obtain ⟨_, ⟨xs, _, hp | hp⟩, _⟩ := c156_held ls s h j hj
  · exact finish_measure j _ ls s h xs ys hw hp rfl
  · exact finish_copy j _ ls s h xs ys hw hp rfl

/-- An exception can leave `Save` at any of its steps; the mutex is not held by it then. -/
theorem c156_exception (ls : List Label) (s : State) (h : Exec next fmt m fs ls s) (j : Nat) (hp : s.phase j ≠ .idle) :
    ∃ s', Exec next fmt m fs (ls ++ [.fail j]) s' ∧ s'.phase j = .idle ∧ s'.owner ≠ some (.saver j) := by
  have hs : ∃ s', step next fmt s (.fail j) = some s' ∧ s'.phase j = .idle := by
    simp only [step]
    split
    · rename_i e; exact absurd e hp
    · exact ⟨_, rfl, by show (s.goto j .idle).phase j = _; rw [goto_phase, if_pos rfl]⟩
    · exact ⟨_, rfl, by show (s.goto j .idle).phase j = _; rw [goto_phase, if_pos rfl]⟩
    · exact ⟨_, rfl, by rw [goto_phase, if_pos rfl]⟩
  obtain ⟨s', h1, h2⟩ := hs
  have hex := Exec.more h h1
  refine ⟨s', hex, h2, fun ho => ?_⟩
  have := (hex.inv.saver j).1 ho
  rw [h2] at this
  exact this

/-! ## Examples -/

/-- Many steps. -/
def run (next : Next) (fmt : Format (List UInt8)) : State → List Label → Option State
  | s, [] => some s
  | s, l :: ls => (step next fmt s l).bind (fun s' => run next fmt s' ls)

theorem run_exec {ls0 ls : List Label} {s s' : State} (h : Exec next fmt m fs ls0 s) (hr : run next fmt s ls = some s') :
    Exec next fmt m fs (ls0 ++ ls) s' := by
  induction ls generalizing ls0 s with
  | nil => cases hr; rw [List.append_nil]; exact h
  | cons l ls ih =>
    simp only [run] at hr
    cases hs : step next fmt s l with
    | none => rw [hs] at hr; cases hr
    | some s1 =>
      rw [hs] at hr
      have := ih (.more h hs) hr
      rwa [List.append_assoc] at this

/-- A value of two fields. -/
def next2 : Next := fun xs => if xs.length < 2 then some xs.length else none

def fmt2 : Format (List UInt8) where
  enc xs := xs
  read c := if c.length < 2 then .throw .endOfFile else .ok (c.take 2, 2)

theorem fmt2_good : fmt2.Good (fun xs => xs.length = 2) where
  empty := ⟨.endOfFile, rfl, rfl⟩
  roundTrip xs h := by
    show fmt2.read xs = _
    simp only [fmt2, h]
    rw [if_neg (by omega), List.take_of_length_le (by omega)]
  truncated xs h k hk := by
    refine ⟨.endOfFile, rfl, ?_⟩
    have : (xs.take k).length < 2 := by
      have hk' : k < xs.length := hk
      rw [List.length_take]; omega
    show fmt2.read (xs.take k) = _
    simp only [fmt2]
    rw [if_pos this]

theorem whole2 (mm : Mem) (xs : List UInt8) (h : Whole next2 mm xs) : xs.length = 2 := by
  have h2 := h.2
  simp only [next2] at h2
  split at h2
  · cases h2
  · rename_i hl
    have : ∀ zs, Reads next2 mm zs → zs.length ≤ 2 := by
      intro zs hz
      induction hz with
      | nil => simp
      | @more zs a _ ha ih =>
        simp only [next2] at ha
        split at ha
        · simp; omega
        · cases ha
    have := this xs h.1
    omega

/-- `Save` is called while thread 0 has changed one of the two fields; thread 1 changes the value again while the files are written. -/
def trace2 : List Label :=
  [.lock 0, .write 0 0 1, .call 0, .write 0 1 1, .unlock 0, .acquire 0, .look 0, .look 0, .measured 0, .read 0, .read 0, .release 0, .lock 1,
    .write 1 0 9] ++ (save fmt2 [1, 1]).map (.io 0) ++ [.ret 0]

example : ((run next2 fmt2 (init (fun _ => 0) (fun _ => .opened [0, 0] [])) trace2).map (fun s => ((s.files 0).master.cur, s.owner))) =
    some ([1, 1], some (.user 1)) := by decide +kernel

/-- The reading cannot begin while thread 0 changes the value. -/
example : (run next2 fmt2 (init (fun _ => 0) (fun _ => .opened [0, 0] [])) [.lock 0, .write 0 0 1, .call 0, .acquire 0]).isNone = true := by
  decide +kernel

example : Clean ((init (fun _ => 0) (fun _ => Files.opened [0, 0] [])).files 0) [0, 0] := ⟨rfl, rfl, rfl, rfl⟩

end Verif.Storage.Conc

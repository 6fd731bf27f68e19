import Verif.File.WinModel
import Verif.File.Lemmas

/-! # C137: a file stream on Windows is a byte array with a position -/

namespace Verif.File.Win

/-- `(DWORD)-1`. -/
example : invalidSetFilePointer = (-1 : BitVec 32).toNat := by decide

theorem set_pass (h : Hnd) (o : Int) (w : From) : check ((setFilePointerEx h o w).2.1 != invalidSetFilePointer) = .ok () := by
  cases h with
  | none => rfl
  | some f => simp only [setFilePointerEx]; split <;> rfl

theorem set_ok (f : File) (o : Int) (w : From) (h : 0 ≤ (base f w : Int) + o) :
    setFilePointerEx (some f) o w = (some ⟨f.data, ((base f w : Int) + o).toNat⟩, 1, some ((base f w : Int) + o).toNat) := by
  simp only [setFilePointerEx]; exact if_neg (by omega)

theorem set_fail (f : File) (o : Int) (w : From) (h : (base f w : Int) + o < 0) : setFilePointerEx (some f) o w = (some f, 0, none) := by
  simp only [setFilePointerEx]; exact if_pos h

theorem position_some (f : File) : getPosition (some f) = .ok f.pos := by
  simp only [getPosition, set_ok f 0 .fileCurrent (by simp only [base]; omega), base]
  show Res.ok _ = _
  simp

theorem seek_ok (f : File) (p : Nat) (hp : p < 2 ^ 63) :
    seek (some f) p true = (some ⟨f.data, p⟩, .ok ()) ∧ seek (some f) p false = (some ⟨f.data, f.data.length + p⟩, .ok ()) := by
  have ht : toOff p = p := by simp only [toOff]; rw [Nat.mod_eq_of_lt (by omega), if_pos hp]
  refine ⟨?_, ?_⟩
  · simp only [seek, ht, if_true, set_ok f p .fileBegin (by simp only [base]; omega)]
    simp [base, check, invalidSetFilePointer]
  · simp only [seek, ht, Bool.false_eq_true, if_false, set_ok f p .fileEnd (by simp only [base]; omega)]
    simp [base, check, invalidSetFilePointer]; omega

theorem write_full (room : Nat) (full : Full) (f : File) (b : List UInt8) (hr : f.pos + toDword b.length ≤ room) (h0 : toDword b.length ≠ 0) :
    write room full (some f) b
      = (some ⟨resize f.data f.pos ++ b.take (toDword b.length) ++ f.data.drop (f.pos + toDword b.length), f.pos + toDword b.length⟩, .ok ()) := by
  simp [write, writeFile, hr, h0]

theorem write_short (room : Nat) (full : Full) (f : File) (b : List UInt8) (hr : room < f.pos + toDword b.length) (h0 : toDword b.length ≠ 0) :
    (write room full (some f) b).2 = .throw .io := by
  simp only [write, writeFile]
  rw [if_neg (show ¬ (toDword b.length = 0 ∨ f.pos + toDword b.length ≤ room) by omega)]
  have hk : min full.took (toDword b.length - 1) ≠ toDword b.length := by omega
  simp only [hk, false_or]
  by_cases hf : full.ret = true
  · simp [hf, hk.symm]
  · simp [hf]

/-- **C137.**  A `Write` of less than 2³² bytes that returns has written all bytes at the position: they are there, the bytes outside are as before (zero where there
were none), the length is what it has to be, the position is behind them.  For 2³² bytes and more see `c137_write_violated`. -/
theorem c137_write_partial (room : Nat) (full : Full) (f : File) (h' : Hnd) (b : List UInt8) (hb : b ≠ []) (hlt : b.length < 2 ^ 32)
    (h : write room full (some f) b = (h', .ok ())) :
    ∃ f', h' = some f' ∧ (∀ i, i < b.length → f'.data[f.pos + i]? = b[i]?)
      ∧ (∀ i, i < f.pos → f'.data[i]? = some (f.data[i]?.getD 0))
      ∧ (∀ i, f.pos + b.length ≤ i → f'.data[i]? = f.data[i]?)
      ∧ f'.data.length = max f.data.length (f.pos + b.length) ∧ getPosition h' = .ok (f.pos + b.length) := by
  have h0 : b.length ≠ 0 := by simpa using hb
  have hd : toDword b.length = b.length := Nat.mod_eq_of_lt hlt
  by_cases hr : f.pos + toDword b.length ≤ room
  · rw [write_full room full f b hr (by omega), hd, List.take_length] at h
    cases h
    refine ⟨_, rfl, ?_, ?_, ?_, ?_, position_some _⟩
    · intro i hi
      rw [List.getElem?_append_left (by simp [resize_length]; omega), List.getElem?_append_right (by simp [resize_length]), resize_length]
      congr 1; omega
    · intro i hi
      rw [List.getElem?_append_left (by simp [resize_length]; omega), List.getElem?_append_left (by simp [resize_length]; omega)]
      exact resize_get _ _ _ hi
    · intro i hi
      rw [List.getElem?_append_right (by simp [resize_length]; omega)]
      simp only [List.length_append, resize_length, List.getElem?_drop]
      congr 1; omega
    · simp [resize_length]; omega
  · have := write_short room full f b (by omega) (by omega)
    rw [h] at this; cases this

/-- **C137.**  It throws if and only if the disk has no room for the bytes. -/
theorem c137_write_throws (room : Nat) (full : Full) (f : File) (b : List UInt8) (hb : b ≠ []) (hlt : b.length < 2 ^ 32) :
    (write room full (some f) b).2 = .throw .io ↔ room < f.pos + b.length := by
  have h0 : b.length ≠ 0 := by simpa using hb
  have hd : toDword b.length = b.length := Nat.mod_eq_of_lt hlt
  constructor
  · intro h
    refine Nat.lt_of_not_le fun hr => ?_
    rw [write_full room full f b (by omega) (by omega)] at h; cases h
  · intro h; exact write_short room full f b (by omega) (by omega)

/-- **C137 is violated** for 2³² bytes and more: `Write` returns, only the rest of the division of their number by 2³² of them are in the file, the position is behind those. -/
theorem c137_write_violated (room : Nat) (full : Full) (f : File) (b : List UInt8) (hb : 2 ^ 32 ≤ b.length) (hr : f.pos + b.length ≤ room) :
    ∃ f', write room full (some f) b = (some f', .ok ()) ∧ f'.pos = f.pos + b.length % 2 ^ 32 ∧ f'.pos < f.pos + b.length
      ∧ f'.data.length ≤ max f.data.length (f.pos + b.length % 2 ^ 32) := by
  have hm : b.length % 2 ^ 32 < 2 ^ 32 := Nat.mod_lt _ (by decide)
  by_cases h0 : toDword b.length = 0
  · refine ⟨f, ?_, ?_, by omega, by omega⟩
    · simp [write, writeFile, h0]
    · simp only [toDword] at h0; omega
  · refine ⟨_, write_full room full f b (by simp only [toDword]; omega) h0, rfl, by simp only [toDword]; omega, ?_⟩
    simp only [List.length_append, resize_length, List.length_take, List.length_drop, toDword]; omega

/-- In particular nothing at all is written of a buffer of 4 GB. -/
theorem c137_write_nothing_violated (room : Nat) (full : Full) (f : File) (b : List UInt8) (hb : b.length = 2 ^ 32) :
    write room full (some f) b = (some f, .ok ()) := by
  have h0 : toDword b.length = 0 := by rw [hb]; rfl
  simp [write, writeFile, h0]

/-- **C137.**  `Read` of less than 2³² bytes gives the next bytes of the file, all that are asked for if there are so many, and moves the position behind them; none if and only if
the end is reached.  For 2³² bytes and more see `c137_read_violated`. -/
theorem c137_read_partial (f : File) (n : Nat) (hn : n < 2 ^ 32) :
    ∃ b, (read (some f) n).2 = .ok b ∧ b = (f.data.drop f.pos).take n ∧ (read (some f) n).1 = some ⟨f.data, f.pos + b.length⟩
      ∧ b.length = min n (f.data.length - f.pos) := by
  have hd : toDword n = n := Nat.mod_eq_of_lt hn
  refine ⟨(f.data.drop f.pos).take n, ?_, rfl, ?_, by simp⟩
  · simp [read, readFile, hd]
  · simp [read, readFile, hd]

/-- **C137 is violated** for 2³² bytes: nothing is read though the file has bytes, which means the end of the file to the caller. -/
theorem c137_read_violated (f : File) (hp : f.pos < f.data.length) :
    read (some f) (2 ^ 32) = (some f, .ok []) ∧ atEnd (some f) = .ok false := by
  refine ⟨?_, ?_⟩
  · simp [read, readFile, toDword]
  · simp only [atEnd, position_some]
    show Res.ok _ = _
    rw [show (f.data.length == f.pos) = false from beq_eq_false_iff_ne.2 (by omega)]

/-- **C137.**  What was written is read back. -/
theorem c137_read_back (room : Nat) (full : Full) (f : File) (h' : Hnd) (b : List UInt8) (hlt : b.length < 2 ^ 32) (hp : f.pos < 2 ^ 63)
    (h : write room full (some f) b = (h', .ok ())) : ∃ h1, seek h' f.pos true = (h1, .ok ()) ∧ (read h1 b.length).2 = .ok b := by
  have hd : toDword b.length = b.length := Nat.mod_eq_of_lt hlt
  have hs : ∀ g : File, seek (some g) f.pos true = (some ⟨g.data, f.pos⟩, .ok ()) := by
    exact fun g => (seek_ok g f.pos hp).1
  by_cases hb : b = []
  · subst hb
    simp only [write, writeFile] at h
    simp [toDword] at h
    subst h
    exact ⟨_, hs _, by simp [read, readFile, toDword]⟩
  · have h0 : b.length ≠ 0 := by simpa using hb
    have hr : f.pos + toDword b.length ≤ room := by
      refine Nat.le_of_not_lt fun hr => ?_
      have := write_short room full f b (by omega) (by omega)
      rw [h] at this; cases this
    rw [write_full room full f b hr (by omega), hd, List.take_length] at h
    cases h
    refine ⟨_, hs _, ?_⟩
    simp only [read, readFile, hd]
    rw [List.append_assoc, List.drop_append_of_le_length (by simp [resize_length]), List.drop_eq_nil_of_le (by simp [resize_length]),
      List.nil_append, List.take_append_of_le_length (Nat.le_refl _), List.take_length]

/-- **C137.**  `Seek` and `Move` to a position that exists go there and return; the contents stay.  For other positions see `c137_move_violated`. -/
theorem c137_seek_partial (f : File) (p : Nat) (hp : p < 2 ^ 63) :
    seek (some f) p true = (some ⟨f.data, p⟩, .ok ()) ∧ seek (some f) p false = (some ⟨f.data, f.data.length + p⟩, .ok ()) := seek_ok f p hp
theorem c137_move_partial (f : File) (o : Int) (h : 0 ≤ (f.pos : Int) + o) : move (some f) o = (some ⟨f.data, ((f.pos : Int) + o).toNat⟩, .ok ()) := by
  simp only [move, set_ok f o .fileCurrent (by simpa [base] using h)]
  rfl

/-- **C137 is violated**: `Seek` and `Move` before the beginning of the file return as if they had moved, and stay where they are, -/
theorem c137_move_violated (f : File) (o : Int) (h : (f.pos : Int) + o < 0) : move (some f) o = (some f, .ok ()) := by
  simp only [move, set_fail f o .fileCurrent (by simpa [base] using h)]
  rfl
theorem c137_seek_violated (f : File) (p : Nat) (h1 : 2 ^ 63 ≤ p) (h2 : p < 2 ^ 64) : seek (some f) p true = (some f, .ok ()) := by
  have ht : toOff p = p - 2 ^ 64 := by simp only [toOff]; rw [Nat.mod_eq_of_lt h2, if_neg (by omega)]
  simp only [seek, if_true, ht, set_fail f (p - 2 ^ 64) .fileBegin (by simp only [base]; omega)]
  rfl

/-- so that the bytes written next go somewhere else than told. -/
theorem c137_misplaced_violated : (write 100 ⟨0, false⟩ (move (some ⟨[1, 2, 3, 4], 3⟩) (-4)).1 [9]) = (some ⟨[1, 2, 3, 9], 4⟩, .ok ()) := by decide

/-- **C137 is violated** for a stream without a file: `Seek`, `Move` and `GetPosition` return, all other calls throw; the name of the file is read from memory that is not
initialised. -/
theorem c137_closed_violated (p : Nat) (begin : Bool) (o : Int) (path : List UInt16) :
    seek none p begin = (none, .ok ()) ∧ move none o = (none, .ok ()) ∧ getPosition none = .ok 0 ∧ getFileName none path = .ub :=
  ⟨by simp only [seek, set_pass]; rfl, by simp only [move, set_pass]; rfl, rfl, rfl⟩
theorem c137_closed_partial (room : Nat) (full : Full) (b : List UInt8) (n : Nat) :
    getLength none = .throw .io ∧ atEnd none = .throw .io ∧ read none n = (none, .throw .io) ∧ write room full none b = (none, .throw .io)
      ∧ flush none = (none, .throw .io) ∧ truncate none = (none, .throw .io) := ⟨rfl, rfl, rfl, rfl, rfl, rfl⟩

/-- **C137.**  `End` tells whether the position is the length, and if the position is not behind the end, whether there is nothing to read. -/
theorem c137_end (f : File) (n : Nat) (h0 : 0 < n) (hn : n < 2 ^ 32) (hp : f.pos ≤ f.data.length) :
    atEnd (some f) = .ok true ↔ (read (some f) n).2 = .ok [] := by
  obtain ⟨b, hb, _, _, hl⟩ := c137_read_partial f n hn
  rw [hb]
  have he : atEnd (some f) = .ok (f.data.length == f.pos) := by simp only [atEnd, position_some]; rfl
  rw [he]
  constructor
  · intro h
    have h1 : f.data.length = f.pos := by simpa using Res.ok.inj h
    rw [List.length_eq_zero_iff.1 (show b.length = 0 by omega)]
  · intro h
    have h1 : b = [] := Res.ok.inj h
    rw [h1] at hl
    simp only [List.length_nil] at hl
    rw [beq_iff_eq.2 (show f.data.length = f.pos by omega)]

/-- **C137.**  `Truncate` makes the position the end of the file; the bytes before it stay.  `Flush` changes nothing. -/
theorem c137_truncate (f : File) : ∃ f', truncate (some f) = (some f', .ok ()) ∧ getLength (some f') = .ok f.pos ∧ getPosition (some f') = .ok f.pos
    ∧ (∀ i, i < f.pos → f'.data[i]? = some (f.data[i]?.getD 0)) ∧ flush (some f) = (some f, .ok ()) :=
  ⟨_, rfl, by simp [getLength, resize_length], position_some _, fun i hi => resize_get _ _ i hi, rfl⟩

/-- **C137.**  The name of an open file is its path if that has less than 260 characters, otherwise "<Too long path>". -/
theorem c137_name (f : File) (path : List UInt16) :
    getFileName (some f) path = .ok (if path.length < 260 then some path else none) := by
  have hm : maxPath = 260 := rfl
  simp only [getFileName]
  by_cases h : path.length < 260
  · rw [if_pos (show path.length + 1 ≤ maxPath by omega), if_pos h, if_neg (by omega)]
  · rw [if_neg (show ¬ path.length + 1 ≤ maxPath by omega), if_neg h, if_pos (by omega)]

/-- **C137.**  Without violations the streams of both platforms do the same: if a call of the POSIX stream returns, and a write has less than 2³² bytes and a read asks for less, the
same call returns on Windows with the same file after it. -/
theorem c137_same_write (lim room : Nat) (full : Full) (f f' : File) (b : List UInt8) (hlt : b.length < 2 ^ 32)
    (h : File.write lim room f b = (f', .ok ())) : write room full (some f) b = (some f', .ok ()) := by
  have hd : toDword b.length = b.length := Nat.mod_eq_of_lt hlt
  by_cases hb : b = []
  · subst hb
    rw [write_nil] at h; cases h
    simp [write, writeFile, toDword]
  · have h0 : b.length ≠ 0 := by simpa using hb
    obtain ⟨he, hl⟩ := File.write_ok lim room f f' b hb h
    have hr : f.pos + b.length ≤ room := by
      simp only [File.write, sysWrite] at h
      by_cases hz : min (min b.length lim) (room - f.pos) = 0
      · rw [if_pos hz, if_neg h0] at h; cases h
      · rw [if_neg hz] at h
        simp only at h
        split at h
        · cases h
        · rename_i hn; have hn := Classical.not_not.mp hn; omega
    rw [write_full room full f b (by omega) (by omega), hd, List.take_length, he]
theorem c137_same_read (lim : Nat) (f : File) (n : Nat) (hl : n ≤ lim) (hn : n < 2 ^ 32) :
    read (some f) n = (some (File.read lim f n).1, .ok (File.read lim f n).2) := by
  have hd : toDword n = n := Nat.mod_eq_of_lt hn
  simp [read, readFile, File.read, sysRead, hd, Nat.min_eq_left hl]
theorem c137_same_move (f f' : File) (o : Int) (h : File.move f o = (f', .ok ())) : move (some f) o = (some f', .ok ()) := by
  simp only [File.move, sysSeek] at h
  by_cases ho : (f.pos : Int) + o < 0
  · rw [if_pos ho] at h; cases h
  · rw [if_neg ho] at h; cases h
    exact c137_move_partial f o (by omega)
theorem c137_same_seek (f f' : File) (p : Nat) (begin : Bool) (h : File.seek f p begin = (f', .ok ())) : seek (some f) p begin = (some f', .ok ()) := by
  have hb : base f (if begin then .fileBegin else .fileEnd) = if begin then 0 else f.data.length := by cases begin <;> rfl
  simp only [File.seek, sysSeek] at h
  by_cases ho : (((if begin then 0 else f.data.length : Nat) : Int) + toOff p) < 0
  · rw [if_pos ho] at h; cases h
  · rw [if_neg ho] at h; cases h
    simp only [seek, set_ok f (toOff p) (if begin then .fileBegin else .fileEnd) (by rw [hb]; omega), hb]
    rfl

example : write 100 ⟨0, false⟩ (some ⟨[1, 2, 3], 5⟩) [7, 8] = (some ⟨[1, 2, 3, 0, 0, 7, 8], 7⟩, .ok ()) := by decide
example : write 4 ⟨1, true⟩ (some ⟨[1, 2, 3], 3⟩) [7, 8] = (some ⟨[1, 2, 3, 7], 4⟩, .throw .io) := by decide
example : read (some ⟨[1, 2, 3], 1⟩) 5 = (some ⟨[1, 2, 3], 3⟩, .ok [2, 3]) := by decide
example : move (some ⟨[1, 2, 3], 1⟩) (-2) = (some ⟨[1, 2, 3], 1⟩, .ok ()) := by decide
example : File.write 100 100 ⟨[1, 2, 3], 5⟩ [7, 8] = (⟨[1, 2, 3, 0, 0, 7, 8], 7⟩, .ok ()) ∧ File.move ⟨[1, 2, 3], 1⟩ 4 = (⟨[1, 2, 3], 5⟩, .ok ()) := by decide

end Verif.File.Win

import Verif.Log.Spec

/-! # Logging: the properties C159 -/

namespace Verif.Log

open Verif Verif.Text

/-! ### Helpers -/

theorem cut_append {c : Nat} {a : Str} (h : c ∉ a) (b : Str) : cut c (a ++ c :: b) = some (a, b) := by
  induction a with
  | nil => simp [cut]
  | cons x a ih =>
    simp only [List.mem_cons, not_or] at h
    simp [cut, Ne.symm h.1, ih h.2]

theorem cut_none {c : Nat} {a : Str} (h : c ∉ a) : cut c a = none := by
  induction a with
  | nil => rfl
  | cons x a ih =>
    simp only [List.mem_cons, not_or] at h
    simp [cut, Ne.symm h.1, ih h.2]

theorem lines_join {L : List Str} (h : ∀ l ∈ L, 10 ∉ l) : ∀ n, (L.flatMap (· ++ [10])).length ≤ n → lines n (L.flatMap (· ++ [10])) = some L := by
  induction L with
  | nil => intro n _; cases n <;> rfl
  | cons l L ih =>
    intro n hn
    simp only [List.flatMap_cons, List.append_assoc, List.singleton_append] at hn ⊢
    obtain ⟨n, rfl⟩ : ∃ k, n = k + 1 := ⟨n - 1, by simp at hn; omega⟩
    have hc := cut_append (h l (by simp)) (L.flatMap (· ++ [10]))
    have hi := ih (fun l' h' => h l' (by simp [h'])) n (by simp at hn ⊢; omega)
    cases hl : l ++ 10 :: L.flatMap (· ++ [10]) with
    | nil => simp at hl
    | cons x xs =>
      rw [hl] at hc
      simp only [lines, hc, hi, Option.map_some]

theorem readLog_join {L : List Str} (h : ∀ l ∈ L, 10 ∉ l) : readLog (L.flatMap (· ++ [10])) = L.mapM readLine := by
  rw [readLog, lines_join h _ (Nat.le_refl _)]

/-- The name of a level. -/
def Method.name : Method → Str
  | .debug => [68, 101, 98, 117, 103]
  | .trace => [84, 114, 97, 99, 101]
  | .info => [73, 110, 102, 111]
  | .warning => [87, 97, 114, 110, 105, 110, 103]
  | .error => [69, 114, 114, 111, 114]

theorem toString_name (m : Method) : Text.toString levels m.level = .ok m.name := by cases m <;> rfl

theorem cstr_name (m : Method) : Convert.cstr m.name = m.name := by cases m <;> rfl

theorem levelNamed_name (m : Method) : levelNamed m.name = some m := by cases m <;> rfl

theorem tab_notin_name (m : Method) : 9 ∉ m.name := by cases m <;> decide

theorem nl_notin_name (m : Method) : 10 ∉ m.name := by cases m <;> decide

theorem readLine_record {time : Str} (ht : 9 ∉ time) (m : Method) (s : Str) : readLine (time ++ 9 :: (m.name ++ 9 :: s)) = some (m, s) := by
  simp only [readLine, cut_append ht, cut_append (tab_notin_name m), levelNamed_name, Option.map_some]

theorem put_put (o : Out) (a b : Str) : (o.put a).put b = o.put (a ++ b) := by
  unfold Out.put
  by_cases hb : o.bad
  · simp [hb]
  · by_cases ha : a.length ≤ o.room
    · by_cases hab : (a ++ b).length ≤ o.room
      · have : b.length ≤ o.room - a.length := by simp at hab; omega
        have h2 : a.length + b.length ≤ o.room := by simp at hab; omega
        simp [hb, ha, h2, this, Nat.sub_sub]
      · have : ¬ b.length ≤ o.room - a.length := by simp at hab; omega
        have h2 : ¬ a.length + b.length ≤ o.room := by simp at hab; omega
        simp [hb, ha, this, h2, List.take_append, List.take_of_length_le ha]
    · have h2 : ¬ a.length + b.length ≤ o.room := by omega
      have h3 : o.room - a.length = 0 := by omega
      simp [hb, ha, h2, List.take_append, h3]

theorem logString_shows {K : Convert.Codec} {m : Message} {s : Str} (h : Shows K m s) : logString K m = .ok s := by
  cases h with
  | narrow s h0 => simp [logString, Convert.fromAString, Convert.cstr_eq h0]
  | wide w s h0 he => rw [logString, Convert.fromWString, Convert.cstr_eq h0, Convert.encodeString_eq he]

/-- A record without the line feed. -/
def body (time : Str) (m : Method) (s : Str) : Str := time ++ 9 :: (m.name ++ 9 :: s)

theorem log_gcc {K : Convert.Codec} {T : Clock} {m : Message} {s : Str} (h : Shows K m s) (t : Nat) (me : Method) (o : Out) :
    log K T .gcc t me.level m o = (.ok (), o.put (body (T.std t) me s ++ [10])) := by
  simp only [log, logString_shows h, consoleLog, toString_name, cstr_name, putTime, put_put, body]
  simp

theorem log_clang {K : Convert.Codec} {T : Clock} {m : Message} {s d : Str} (h : Shows K m s) {t : Nat} (hd : T.ctime t = some d) (me : Method) (o : Out) :
    log K T .clang t me.level m o = (.ok (), o.put ((d ++ [10]) ++ (body [] me s ++ [10]))) := by
  simp only [log, logString_shows h, consoleLog, toString_name, cstr_name, putTime, hd, put_put, body]
  simp

/-- The records of calls. -/
def bodies (f : Nat → Str) : List Call → List Str → List Str
  | c :: cs, s :: ss => body (f c.time) c.method s :: bodies f cs ss
  | _, _ => []

theorem put_nil (o : Out) (h : o.bad = false) : o.put [] = o := by
  cases o; simp_all [Out.put]

theorem put_nil' (o : Out) : o.put [] = o := by
  cases hb : o.bad
  · exact put_nil o hb
  · simp [Out.put, hb]

theorem run_gcc {K : Convert.Codec} {T : Clock} {cs : List Call} {ss : List Str} (h : List.Forall₂ (fun c s => Shows K c.message s) cs ss) :
    ∀ o, run K T .gcc cs o = (.ok (), o.put ((bodies T.std cs ss).flatMap (· ++ [10]))) := by
  induction h with
  | nil => intro o; simp [run, bodies, put_nil']
  | cons h1 h2 ih =>
    intro o
    simp only [run, log_gcc h1, ih, put_put, bodies, List.flatMap_cons]

theorem put_good {o : Out} (h : o.bad = false) (s : Str) : (o.put s).text = o.text ++ s.take o.room ∧ (o.put s).bad = decide (o.room < s.length) := by
  unfold Out.put
  simp only [h, Bool.false_eq_true, if_false]
  split
  · rename_i hs
    simp [List.take_of_length_le hs]; omega
  · simp; omega

theorem bodies_good {T : Clock} (hT : ∀ t, 9 ∉ T.std t ∧ 10 ∉ T.std t) {cs : List Call} {ss : List Str} (hn : ∀ s ∈ ss, 10 ∉ s) (hl : cs.length = ss.length) :
    (∀ l ∈ bodies T.std cs ss, 10 ∉ l) ∧ (bodies T.std cs ss).mapM readLine = some ((cs.map (·.method)).zip ss) := by
  induction cs generalizing ss with
  | nil => simp [bodies]
  | cons c cs ih =>
    cases ss with
    | nil => simp at hl
    | cons s ss =>
      obtain ⟨h1, h2⟩ := ih (ss := ss) (fun s' h' => hn s' (by simp [h'])) (by simpa using hl)
      constructor
      · intro l hl'
        simp only [bodies, List.mem_cons] at hl'
        rcases hl' with rfl | hl'
        · simp only [body, List.mem_append, List.mem_cons, not_or]
          exact ⟨(hT _).2, by decide, nl_notin_name _, by decide, hn s (by simp)⟩
        · exact h1 l hl'
      · simp only [bodies, List.mapM_cons, body, readLine_record (hT c.time).1, h2]
        rfl

/-! ### The properties -/

/-- Partial: for other compilers than Clang, for messages without line feeds and zeros, and one thread.  Whatever is logged, at whatever times and levels, there is one
text that every stream gets, as far as its device takes it; read line by line, it has one record for every call, in their order, with its level and its message. -/
theorem c159_read_back_partial (K : Convert.Codec) (T : Clock) (hT : ∀ t, 9 ∉ T.std t ∧ 10 ∉ T.std t) (cs : List Call) (ss : List Str)
    (h : List.Forall₂ (fun c s => Shows K c.message s) cs ss) (hn : ∀ s ∈ ss, 10 ∉ s) :
    ∃ out, readLog out = some ((cs.map (·.method)).zip ss) ∧
      ∀ o : Out, o.bad = false → ∃ o', run K T .gcc cs o = (.ok (), o') ∧ o'.text = o.text ++ out.take o.room ∧ o'.bad = decide (o.room < out.length) := by
  obtain ⟨h1, h2⟩ := bodies_good hT hn h.length_eq
  refine ⟨(bodies T.std cs ss).flatMap (· ++ [10]), ?_, fun o ho => ⟨_, run_gcc h o, put_good ho _⟩⟩
  rw [readLog_join h1, h2]

/-- A message that cannot be converted is refused with an exception, and nothing is written. -/
theorem c159_refused (K : Convert.Codec) (T : Clock) (cc : Compiler) (t : Nat) (m : Method) (w : Str) (h0 : 0 ∉ w) (x : Nat) (hx : x ∈ w) (hn : K.wc x = none) (o : Out) :
    log K T cc t m.level (.wide w) o = (.throw .logic, o) := by
  rw [log, logString, Convert.c128_reported h0 hx hn]

/-- Violated: with Clang a record is two lines, and no log but the empty one can be read line by line. -/
theorem c159_clang_violated (K : Convert.Codec) (T : Clock) (hT : ∀ t, ∃ d, T.ctime t = some d ∧ 9 ∉ d ∧ 10 ∉ d) (c : Call) (s : Str)
    (h : Shows K c.message s) (hn : 10 ∉ s) : ∃ out, readLog out = none ∧ (out.filter (· = 10)).length = 2 ∧
      ∀ o : Out, o.bad = false → out.length ≤ o.room → ∃ o', run K T .clang [c] o = (.ok (), o') ∧ o'.text = o.text ++ out := by
  obtain ⟨d, hd, h9, h10⟩ := hT c.time
  have hb : 10 ∉ body [] c.method s := by
    simp only [body, List.nil_append, List.mem_append, List.mem_cons, not_or]
    exact ⟨by decide, nl_notin_name _, by decide, hn⟩
  refine ⟨[d, body [] c.method s].flatMap (· ++ [10]), ?_, ?_, fun o ho hr => ⟨_, ?_, (put_good ho _).1.trans (by rw [List.take_of_length_le hr])⟩⟩
  · rw [readLog_join (by simp [h10, hb])]
    simp [readLine, cut_none h9]
  · have e1 : d.filter (· = 10) = [] := List.filter_eq_nil_iff.2 fun x hx => by simp; rintro rfl; exact h10 hx
    have e2 : (body [] c.method s).filter (· = 10) = [] := List.filter_eq_nil_iff.2 fun x hx => by simp; rintro rfl; exact hb hx
    simp [e1, e2]
  · simp only [run, log_clang h hd, List.flatMap_cons, List.flatMap_nil, List.append_nil]

/-- Partial: the same with Clang, if two lines are read as a record. -/
theorem c159_clang_partial (K : Convert.Codec) (T : Clock) (hT : ∀ t, ∃ d, T.ctime t = some d ∧ 9 ∉ d ∧ 10 ∉ d) (cs : List Call) (ss : List Str)
    (h : List.Forall₂ (fun c s => Shows K c.message s) cs ss) (hn : ∀ s ∈ ss, 10 ∉ s) :
    ∃ out, readLog2 out = some ((cs.map (·.method)).zip ss) ∧
      ∀ o : Out, o.bad = false → ∃ o', run K T .clang cs o = (.ok (), o') ∧ o'.text = o.text ++ out.take o.room ∧ o'.bad = decide (o.room < out.length) := by
  suffices H : ∃ L : List Str, (∀ l ∈ L, 10 ∉ l) ∧ (∃ rs, pairUp L = some rs ∧ rs.mapM readLine = some ((cs.map (·.method)).zip ss)) ∧
      ∀ o, run K T .clang cs o = (.ok (), o.put (L.flatMap (· ++ [10]))) by
    obtain ⟨L, h1, ⟨rs, h2, h3⟩, h4⟩ := H
    refine ⟨L.flatMap (· ++ [10]), ?_, fun o ho => ⟨_, h4 o, put_good ho _⟩⟩
    simp only [readLog2, lines_join h1 _ (Nat.le_refl _), h2, h3]
  induction h with
  | nil => exact ⟨[], by simp, ⟨[], rfl, rfl⟩, fun o => by simp [run, put_nil']⟩
  | @cons c s cs ss h1 h2 ih =>
    obtain ⟨L, g1, ⟨rs, g2, g3⟩, g4⟩ := ih fun s' h' => hn s' (by simp [h'])
    obtain ⟨d, hd, h9, h10⟩ := hT c.time
    have hb : 10 ∉ body [] c.method s := by
      simp only [body, List.nil_append, List.mem_append, List.mem_cons, not_or]
      exact ⟨by decide, nl_notin_name _, by decide, hn s (by simp)⟩
    refine ⟨d :: body [] c.method s :: L, ?_, ⟨body d c.method s :: rs, ?_, ?_⟩, fun o => ?_⟩
    · intro l hl
      simp only [List.mem_cons] at hl
      rcases hl with rfl | rfl | hl
      · exact h10
      · exact hb
      · exact g1 l hl
    · simp [pairUp, g2, body]
    · simp only [List.mapM_cons, body, readLine_record h9, g3]
      rfl
    · simp only [run, log_clang h1 hd, g4, put_put, List.flatMap_cons, List.append_assoc]

/-- Violated with Clang: a time that `ctime` cannot show makes the stream bad; the message and all later ones are lost without notice. -/
theorem c159_clang_time_violated (K : Convert.Codec) (T : Clock) (c : Call) (s : Str) (h : Shows K c.message s) (ht : T.ctime c.time = none) (cs : List Call)
    (ss : List Str) (hs : List.Forall₂ (fun c s => Shows K c.message s) cs ss) (o : Out) :
    ∃ o', run K T .clang (c :: cs) o = (.ok (), o') ∧ o'.text = o.text := by
  have hbad : ∀ (o : Out) (x : Str), o.bad = true → o.put x = o := fun o x hb => by simp [Out.put, hb]
  have hone : ∀ (c : Call) (s : Str) (o : Out), Shows K c.message s → o.bad = true → ∃ o', log K T .clang c.time c.method.level c.message o = (.ok (), o') ∧
      o'.bad = true ∧ o'.text = o.text := by
    intro c s o h hb
    cases hd : T.ctime c.time with
    | none =>
      refine ⟨{ o with bad := true }, ?_, rfl, rfl⟩
      simp only [log, logString_shows h, consoleLog, toString_name, putTime, hd]
      simp only [hbad]
    | some d => exact ⟨_, log_clang h hd _ o, by rw [hbad _ _ hb]; exact ⟨hb, rfl⟩⟩
  have hall : ∀ o : Out, o.bad = true → ∃ o', run K T .clang cs o = (.ok (), o') ∧ o'.text = o.text := by
    induction hs with
    | nil => intro o _; exact ⟨o, rfl, rfl⟩
    | cons h1 h2 ih =>
      intro o ho
      obtain ⟨o1, e1, b1, t1⟩ := hone _ _ o h1 ho
      obtain ⟨o2, e2, t2⟩ := ih o1 b1
      exact ⟨o2, by simp only [run, e1, e2], by rw [t2, t1]⟩
  obtain ⟨o2, e2, t2⟩ := hall { o with bad := true } rfl
  refine ⟨o2, ?_, t2⟩
  have e1 : log K T .clang c.time c.method.level c.message o = (.ok (), { o with bad := true }) := by
    simp only [log, logString_shows h, consoleLog, toString_name, putTime, ht]
    simp only [hbad]
  simp only [run, e1, e2]

/-- Violated: a message with a line feed can be a record of its own; the log of one call is the same as the one of two calls, one of which was an error. -/
theorem c159_line_feed_violated (K : Convert.Codec) (T : Clock) (h0 : ∀ t, 0 ∉ T.std t) (t : Nat) (a b : Str) (ha : 0 ∉ a) (hb : 0 ∉ b) :
    ∃ m, Shows K (.narrow m) m ∧ ∀ o, run K T .gcc [⟨t, .info, .narrow m⟩] o = run K T .gcc [⟨t, .info, .narrow a⟩, ⟨t, .error, .narrow b⟩] o := by
  have hm : Shows K (.narrow (a ++ 10 :: body (T.std t) .error b)) (a ++ 10 :: body (T.std t) .error b) := by
    refine .narrow _ ?_
    simp only [body, Method.name, List.mem_append, List.mem_cons, not_or]
    refine ⟨ha, by decide, h0 t, by decide, ⟨by decide, by decide, by decide, by decide, by decide, by simp⟩, by decide, hb⟩
  refine ⟨_, hm, fun o => ?_⟩
  rw [run_gcc (ss := [_]) (.cons hm .nil) o, run_gcc (ss := [a, b]) (.cons (.narrow _ ha) (.cons (.narrow _ hb) .nil)) o]
  simp [bodies, body]

/-- Violated: what follows a zero in a message is not logged. -/
theorem c159_zero_violated (K : Convert.Codec) (T : Clock) (cc : Compiler) (t : Nat) (me : Method) (a b : Str) (h : 0 ∉ a) (o : Out) :
    log K T cc t me.level (.narrow (a ++ 0 :: b)) o = log K T cc t me.level (.narrow a) o := by
  have e : Convert.cstr (a ++ 0 :: b) = a := by
    rw [Convert.cstr, List.takeWhile_append_of_pos]
    · simp
    · intro x hx; simp; rintro rfl; exact h hx
  simp only [log, logString, Convert.fromAString, e, Convert.cstr_eq h]

/-- Violated: a device that takes no more characters loses messages, and the calls return as if nothing had happened. -/
theorem c159_full_violated (K : Convert.Codec) (T : Clock) (cs : List Call) (ss : List Str) (h : List.Forall₂ (fun c s => Shows K c.message s) cs ss) (o : Out)
    (ho : o.room = 0) : ∃ o', run K T .gcc cs o = (.ok (), o') ∧ o'.text = o.text := by
  refine ⟨_, run_gcc h o, ?_⟩
  cases hb : o.bad with
  | false => rw [(put_good hb _).1, ho]; simp
  | true => simp [Out.put, hb]

/-- Violated: `log` with a value that is no level throws, and leaves the begin of a line. -/
theorem c159_half_line_violated (K : Convert.Codec) (T : Clock) (t level : Nat) (hl : 5 ≤ level) (m : Message) (s : Str) (h : Shows K m s) (o : Out) (hb : o.bad = false)
    (hr : (T.std t).length < o.room) : ∃ o', log K T .gcc t level m o = (.throw .runtime, o') ∧ o'.text = o.text ++ T.std t ++ [9] := by
  have e : Text.toString levels level = .throw .runtime := by
    have : levels.count = 5 := rfl
    simp [Text.toString, Text.toIndex, this, hl]
  refine ⟨o.put (T.std t ++ [9]), ?_, ?_⟩
  · simp only [log, logString_shows h, consoleLog, e, putTime, put_put]
  · rw [(put_good hb _).1, List.take_of_length_le (by simp; omega)]
    simp

/-- Violated: of what two threads log at the same time there may be an output that cannot be read, although the output of each of them can. -/
theorem c159_threads_violated (T : Clock) (hT : ∀ t, 9 ∉ T.std t ∧ 10 ∉ T.std t) (t u : Nat) (m n : Method) (a b : Str) (ha : 9 ∉ a ∧ 10 ∉ a) (hb : 10 ∉ b) :
    readLog (pieces T t m.name a).flatten = some [(m, a)] ∧ readLog (pieces T u n.name b).flatten = some [(n, b)] ∧
    ∃ zs, Mixed (pieces T t m.name a) (pieces T u n.name b) zs ∧ readLog zs.flatten = none := by
  have hb' : ∀ t (m : Method) (s : Str), 10 ∉ s → 10 ∉ body (T.std t) m s := by
    intro t m s hs
    simp only [body, List.mem_append, List.mem_cons, not_or]
    exact ⟨(hT t).2, by decide, nl_notin_name _, by decide, hs⟩
  have one : ∀ t (m : Method) (s : Str), 10 ∉ s → readLog (pieces T t m.name s).flatten = some [(m, s)] := by
    intro t m s hs
    have e : (pieces T t m.name s).flatten = [body (T.std t) m s].flatMap (· ++ [10]) := by simp [pieces, body]
    rw [e, readLog_join (by simpa using hb' t m s hs)]
    simp [body, readLine_record (hT t).1]
  refine ⟨one t m a ha.2, one u n b hb, [T.std t, [9], m.name, [9], T.std u, [9], n.name, [9], b, [10], a, [10]], ?_, ?_⟩
  · simp only [pieces]
    refine .left _ _ _ _ (.left _ _ _ _ (.left _ _ _ _ (.left _ _ _ _ ?_)))
    refine .right _ _ _ _ (.right _ _ _ _ (.right _ _ _ _ (.right _ _ _ _ (.right _ _ _ _ (.right _ _ _ _ ?_)))))
    exact .left _ _ _ _ (.left _ _ _ _ .nil)
  · have e : [T.std t, [9], m.name, [9], T.std u, [9], n.name, [9], b, [10], a, [10]].flatten = [body (T.std t) m (body (T.std u) n b), a].flatMap (· ++ [10]) := by
      simp [body]
    rw [e, readLog_join (by simpa using ⟨hb' t m _ (hb' u n b hb), ha.2⟩)]
    have hr : readLine a = none := by simp [readLine, cut_none ha.1]
    simp [hr]

/-! ### Cases that meet the hypotheses -/

/-- A clock: the text of a time is a digit. -/
def digitClock : Clock := ⟨fun t => [48 + t % 10], fun t => if t < 100 then some [48 + t % 10] else none⟩

example : ∀ t, 9 ∉ digitClock.std t ∧ 10 ∉ digitClock.std t := by
  intro t
  simp only [digitClock, List.mem_singleton]
  omega

-- `warning("a\tb")`, `info(L"é")` in UTF-8
example : List.Forall₂ (fun (c : Call) s => Shows Convert.utf8 c.message s) [⟨3, .warning, .narrow [97, 9, 98]⟩, ⟨4, .info, .wide [0xE9]⟩] [[97, 9, 98], [0xC3, 0xA9]] :=
  .cons (.narrow _ (by decide)) (.cons (.wide _ _ (by decide) (.cons (bs := []) (b := [0xC3, 0xA9]) (by decide) .nil)) .nil)

example : run Convert.utf8 digitClock .gcc [⟨3, .warning, .narrow [97, 9, 98]⟩, ⟨4, .info, .wide [0xE9]⟩] ⟨[], false, 100⟩ =
    (.ok (), ⟨[51, 9, 87, 97, 114, 110, 105, 110, 103, 9, 97, 9, 98, 10, 52, 9, 73, 110, 102, 111, 9, 0xC3, 0xA9, 10], false, 76⟩) := by decide

example : readLog [51, 9, 87, 97, 114, 110, 105, 110, 103, 9, 97, 9, 98, 10, 52, 9, 73, 110, 102, 111, 9, 0xC3, 0xA9, 10] =
    some [(.warning, [97, 9, 98]), (.info, [0xC3, 0xA9])] := by decide

-- with Clang
example : run Convert.utf8 digitClock .clang [⟨3, .info, .narrow [97]⟩] ⟨[], false, 100⟩ = (.ok (), ⟨[51, 10, 9, 73, 110, 102, 111, 9, 97, 10], false, 90⟩) := by decide

end Verif.Log

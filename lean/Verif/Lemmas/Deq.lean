import Verif.Model.Deq
import Verif.Spec.Deq
namespace Verif
variable {α : Type}

/-- abstraction: live items and number of freed slots -/
def Deq.R (d : Deq α) (q : ListQ α) : Prop :=
  d.pos ≤ d.buf.length ∧ q.items = d.buf.drop d.pos ∧ q.slack = d.pos

theorem drop_set_self {l : List α} {p : Nat} {x : α} (h : p < l.length) :
    (l.set p x).drop p = x :: l.drop (p + 1) := by
  rw [List.drop_eq_getElem_cons (by simpa using h), List.drop_set_of_lt (by omega)]
  simp

theorem Deq.step_R (dflt : α) (d : Deq α) (q : ListQ α) (op : DeqOp α) (hR : d.R q)
    (ha : q.Allowed op)
    (ht : ∀ n, op = .truncate n → q.slack = 0 ∨ q.slack + q.items.length ≤ n) :
    ∃ d', d.step dflt op = some (d', (q.step op).2) ∧ d'.R (q.step op).1 := by
  obtain ⟨buf, pos⟩ := d
  obtain ⟨items, slack⟩ := q
  obtain ⟨h1, h2, h3⟩ := hR
  simp only at h1 h2 h3
  subst h2 h3
  have hlen : (Deq.mk buf slack).len = some (buf.length - slack) := by simp [Deq.len, h1]
  have hemp : (Deq.mk buf slack).isEmpty = some (buf.length - slack == 0) := by
    simp [Deq.isEmpty, hlen]
  cases op with
  | push x =>
    refine ⟨⟨buf ++ [x], slack⟩, rfl, ?_, ?_, rfl⟩
    · simp; omega
    · simp [ListQ.step, List.drop_append_of_le_length h1]
  | extend xs =>
    refine ⟨⟨buf ++ xs, slack⟩, rfl, ?_, ?_, rfl⟩
    · simp; omega
    · simp [ListQ.step, List.drop_append_of_le_length h1]
  | pop =>
    by_cases h0 : buf.length - slack = 0
    · have hs : slack = buf.length := by omega
      subst hs
      refine ⟨⟨buf, buf.length⟩, ?_, ?_⟩
      · simp [Deq.step, Deq.pop, hemp, ListQ.step]
      · simp [ListQ.step, Deq.R]
    · refine ⟨⟨buf.dropLast, slack⟩, ?_, ?_, ?_, rfl⟩
      · have : (buf.length - slack == 0) = false := by simp [h0]
        simp [Deq.step, Deq.pop, hemp, this, ListQ.step, List.getLast?_drop]; omega
      · simp; omega
      · simp [ListQ.step, List.dropLast_eq_take, List.drop_take]; congr 1; omega
  | popFront =>
    by_cases h0 : buf.length - slack = 0
    · have hs : slack = buf.length := by omega
      subst hs
      refine ⟨⟨buf, buf.length⟩, ?_, ?_⟩
      · simp [Deq.step, Deq.popFront, hemp, ListQ.step]
      · simp [ListQ.step, Deq.R]
    · have hlt : slack < buf.length := by omega
      have : (buf.length - slack == 0) = false := by simp [h0]
      have hd : buf.drop slack = buf[slack] :: buf.drop (slack + 1) :=
        List.drop_eq_getElem_cons hlt
      have hq : ListQ.step ⟨buf.drop slack, slack⟩ .popFront
          = (⟨buf.drop (slack + 1), slack + 1⟩, .item (some buf[slack])) := by
        simp only [ListQ.step]; rw [hd]
      rw [hq]
      refine ⟨⟨buf.set slack dflt, slack + 1⟩, ?_, ?_⟩
      · simp [Deq.step, Deq.popFront, hemp, this, hlt]
      · refine ⟨by simp; omega, ?_, rfl⟩
        show buf.drop (slack + 1) = (buf.set slack dflt).drop (slack + 1)
        rw [List.drop_set_of_lt (by omega)]
  | removeFirst =>
    have hne : slack < buf.length := by
      simp only [ListQ.Allowed, ne_eq, List.drop_eq_nil_iff] at ha; omega
    refine ⟨⟨buf, slack + 1⟩, rfl, ?_, ?_, rfl⟩
    · simp; omega
    · simp [ListQ.step]
  | restoreFront x =>
    simp only [ListQ.Allowed] at ha
    have hlt : slack - 1 < buf.length := by omega
    refine ⟨⟨buf.set (slack - 1) x, slack - 1⟩, ?_, ?_, ?_, rfl⟩
    · have : slack ≠ 0 := by omega
      simp [Deq.step, Deq.restoreFront, this, hlt, ListQ.step]
    · simp; omega
    · simp only [ListQ.step]
      rw [drop_set_self hlt, show slack - 1 + 1 = slack by omega]
  | slowlyPushFront x =>
    by_cases hs : slack = 0
    · subst hs
      refine ⟨⟨x :: buf, 0⟩, ?_, ?_, ?_, rfl⟩
      · simp [Deq.step, Deq.slowlyPushFront, ListQ.step]
      · simp
      · simp [ListQ.step]
    · have hlt : slack - 1 < buf.length := by omega
      refine ⟨⟨buf.set (slack - 1) x, slack - 1⟩, ?_, ?_, ?_, rfl⟩
      · simp [Deq.step, Deq.slowlyPushFront, hs, hlt, ListQ.step]
      · simp; omega
      · simp only [ListQ.step]
        rw [drop_set_self hlt, show slack - 1 + 1 = slack by omega]
  | clear => exact ⟨⟨[], 0⟩, rfl, by simp [Deq.R, ListQ.step]⟩
  | truncate n =>
    have h := ht n rfl
    simp only [List.length_drop] at h
    refine ⟨⟨buf.take n, slack⟩, rfl, ?_, ?_, rfl⟩
    · simp; rcases h with h | h <;> omega
    · simp only [ListQ.step]
      rcases h with h | h
      · subst h; simp
      · rw [List.take_of_length_le (by simp; omega), List.take_of_length_le (by omega)]
  | len => exact ⟨⟨buf, slack⟩, by simp [Deq.step, hlen, ListQ.step], h1, rfl, rfl⟩
  | get i =>
    refine ⟨⟨buf, slack⟩, ?_, h1, rfl, rfl⟩
    simp [Deq.step, Deq.get, ListQ.step, Nat.add_comm]
  | first =>
    refine ⟨⟨buf, slack⟩, ?_, h1, rfl, rfl⟩
    simp [Deq.step, Deq.first, ListQ.step]
  | last =>
    refine ⟨⟨buf, slack⟩, ?_, h1, rfl, rfl⟩
    by_cases h0 : buf.length - slack = 0
    · have : buf.drop slack = [] := by simp; omega
      simp [Deq.step, Deq.last, hemp, h0, ListQ.step, this]
    · have : (buf.length - slack == 0) = false := by simp [h0]
      simp [Deq.step, Deq.last, hemp, this, ListQ.step, List.getLast?_drop]; omega
  | iter => exact ⟨⟨buf, slack⟩, rfl, h1, rfl, rfl⟩

theorem Deq.run_R (dflt : α) (ops : List (DeqOp α)) (d : Deq α) (q : ListQ α) (hR : d.R q)
    (ha : q.AllAllowed ops) (ht : q.TruncOk ops) :
    ∃ d', d.run dflt ops = some (d', (q.run ops).2) ∧ d'.R (q.run ops).1 := by
  induction ops generalizing d q with
  | nil => exact ⟨d, rfl, hR⟩
  | cons op ops ih =>
    obtain ⟨d1, hs, hR1⟩ := Deq.step_R dflt d q op hR ha.1 ht.1
    obtain ⟨d2, hr, hR2⟩ := ih d1 _ hR1 ha.2 ht.2
    exact ⟨d2, by simp [Deq.run, hs, hr, ListQ.run], by simpa [ListQ.run] using hR2⟩

end Verif

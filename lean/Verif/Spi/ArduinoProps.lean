import Verif.Spi.Arduino
/-!
# C56: SPI transfers on Arduino
-/
namespace Verif.Spi.Arduino
open Verif

/-- The answers of the peer to the bytes `out`, sent after the bytes `before`. -/
def answers (peer : Peer) : List Byte → List Byte → List Byte
  | _, [] => []
  | before, b :: bs => peer before :: answers peer (before ++ [b]) bs

/-- The exchange of the bytes `out`. -/
def exchanges (peer : Peer) : List Byte → List Byte → List Ev
  | _, [] => []
  | before, b :: bs => .exchange b (peer before) :: exchanges peer (before ++ [b]) bs

theorem answers_length (peer : Peer) (before out : List Byte) : (answers peer before out).length = out.length := by
  induction out generalizing before with
  | nil => rfl
  | cons b bs ih => simp [answers, ih]

theorem answers_append (peer : Peer) (before a b : List Byte) :
    answers peer before (a ++ b) = answers peer before a ++ answers peer (before ++ a) b := by
  induction a generalizing before with
  | nil => simp [answers]
  | cons x xs ih => simp [answers, ih]

theorem exchanges_append (peer : Peer) (before a b : List Byte) :
    exchanges peer before (a ++ b) = exchanges peer before a ++ exchanges peer (before ++ a) b := by
  induction a generalizing before with
  | nil => simp [exchanges]
  | cons x xs ih => simp [exchanges, ih]

theorem sentBytes_append (a b : List Ev) : sentBytes (a ++ b) = sentBytes a ++ sentBytes b := by
  induction a with
  | nil => rfl
  | cons e es ih => cases e <;> simp [sentBytes, ih]

theorem sentBytes_exchanges (peer : Peer) (before out : List Byte) : sentBytes (exchanges peer before out) = out := by
  induction out generalizing before with
  | nil => rfl
  | cons b bs ih => simp [exchanges, sentBytes, ih]

/-- The bytes a transfer of `length` bytes puts on the wire. -/
def outgoing (tx : Option (List Byte)) (length : Nat) : List Byte :=
  match tx with
  | none => List.replicate length 0xFF
  | some m => m.take length

/-- The memory of a sink after receiving `got` at its beginning. -/
def incoming (rx : Option (List Byte)) (got : List Byte) : Option (List Byte) :=
  rx.map (fun m => got ++ m.drop got.length)

/-- The memory is large enough. -/
def Room (m : Option (List Byte)) (length : Nat) : Prop := ∀ l, m = some l → length ≤ l.length

theorem outgoing_length {tx : Option (List Byte)} {n : Nat} (h : Room tx n) : (outgoing tx n).length = n := by
  cases tx with
  | none => simp [outgoing]
  | some m => have := h m rfl; simp [outgoing]; omega

theorem bytes_ok (peer : Peer) (tx rx0 : Option (List Byte)) (n : Nat) (bus : List Ev) (got pre : List Byte)
    (hbus : sentBytes bus = pre)
    (ht : Room tx (got.length + n)) (hr : Room rx0 (got.length + n)) :
    bytes peer tx n got.length (incoming rx0 got) bus =
      .ok (incoming rx0 (got ++ answers peer pre ((outgoing tx (got.length + n)).drop got.length)),
        bus ++ exchanges peer pre ((outgoing tx (got.length + n)).drop got.length)) := by
  induction n generalizing bus got pre with
  | zero =>
    have : (outgoing tx (got.length + 0)).drop got.length = [] := by
      apply List.drop_eq_nil_of_le
      rw [outgoing_length ht]; omega
    rw [this]
    simp [bytes, answers, exchanges]
  | succ n ih =>
    -- the byte sent
    obtain ⟨b, hb1, hb2⟩ : ∃ b, source tx got.length = .ok b ∧
        (outgoing tx (got.length + (n + 1))).drop got.length =
          b :: (outgoing tx (got.length + (n + 1))).drop (got.length + 1) := by
      have hlen := outgoing_length ht
      have hlt : got.length < (outgoing tx (got.length + (n + 1))).length := by omega
      refine ⟨(outgoing tx (got.length + (n + 1)))[got.length], ?_, List.drop_eq_getElem_cons hlt⟩
      cases tx with
      | none => simp [source, outgoing]
      | some m =>
        have := ht m rfl
        simp [source, outgoing, List.getElem?_eq_getElem (show got.length < m.length by omega)]
    unfold bytes
    rw [hb1]
    simp only [Res.bind_ok, exchange, hbus]
    have hsink : sink (incoming rx0 got) got.length (peer pre) = .ok (incoming rx0 (got ++ [peer pre])) := by
      cases rx0 with
      | none => rfl
      | some m =>
        have := hr m rfl
        simp only [incoming, Option.map_some, sink]
        have hset : (List.drop got.length m).set 0 (peer pre) = peer pre :: List.drop (got.length + 1) m := by
          rw [List.drop_eq_getElem_cons (show got.length < m.length by omega), List.set_cons_zero]
        rw [if_pos (by simp; omega), List.set_append_right _ _ (Nat.le_refl _), Nat.sub_self, hset]
        simp
    rw [hsink]
    simp only [Res.bind_ok]
    have h := ih (bus ++ [.exchange b (peer pre)]) (got ++ [peer pre]) (pre ++ [b])
      (by rw [sentBytes_append, hbus]; rfl)
      (by simp only [List.length_append, List.length_singleton]; rw [Nat.add_assoc, Nat.add_comm 1]; exact ht)
      (by simp only [List.length_append, List.length_singleton]; rw [Nat.add_assoc, Nat.add_comm 1]; exact hr)
    simp only [List.length_append, List.length_singleton] at h
    rw [show got.length + 1 + n = got.length + (n + 1) by omega] at h
    rw [h, hb2]
    simp [answers, exchanges]

theorem incoming_nil (rx : Option (List Byte)) : incoming rx [] = rx := by
  cases rx <;> simp [incoming]

theorem outgoing_take {tx : Option (List Byte)} {a b : Nat} (h : a ≤ b) : outgoing tx a = (outgoing tx b).take a := by
  cases tx with
  | none => simp [outgoing, Nat.min_eq_left h]
  | some m => simp [outgoing, List.take_take, Nat.min_eq_left h]

theorem move_ok (peer : Peer) (tx rx : Option (List Byte)) (size : Nat) (bus : List Ev)
    (ht : Room tx size) (hr : Room rx size) :
    move peer tx rx size bus = .ok (incoming rx (answers peer (sentBytes bus) (outgoing tx size)),
      bus ++ exchanges peer (sentBytes bus) (outgoing tx size)) := by
  unfold move
  by_cases h3 : size ≤ 3
  · rw [if_pos h3]
    have := bytes_ok peer tx rx size bus [] _ rfl (by simpa using ht) (by simpa using hr)
    simp only [incoming_nil, List.length_nil, Nat.zero_add, List.drop_zero, List.nil_append] at this
    exact this
  · rw [if_neg h3]
    simp only
    have hdiv : size / 4 * 4 + size % 4 = size := by omega
    have h1 := bytes_ok peer tx rx (size / 4 * 4) bus [] _ rfl
      (by intro l hl; have := ht l hl; simp; omega) (by intro l hl; have := hr l hl; simp; omega)
    simp only [incoming_nil, List.length_nil, Nat.zero_add, List.drop_zero, List.nil_append] at h1
    rw [h1]
    simp only [Res.bind_ok]
    have htake : outgoing tx (size / 4 * 4) = (outgoing tx size).take (size / 4 * 4) := outgoing_take (by omega)
    by_cases hrest : size % 4 ≠ 0
    · rw [if_pos hrest]
      have hlen : (answers peer (sentBytes bus) (outgoing tx (size / 4 * 4))).length = size / 4 * 4 := by
        rw [answers_length, outgoing_length]
        intro l hl; have := ht l hl; omega
      have h2 := bytes_ok peer tx rx (size % 4) (bus ++ exchanges peer (sentBytes bus) (outgoing tx (size / 4 * 4)))
        (answers peer (sentBytes bus) (outgoing tx (size / 4 * 4))) _ rfl
        (by rw [hlen, hdiv]; exact ht) (by rw [hlen, hdiv]; exact hr)
      rw [hlen, hdiv] at h2
      rw [h2, sentBytes_append, sentBytes_exchanges]
      have hsplit : outgoing tx size = outgoing tx (size / 4 * 4) ++ (outgoing tx size).drop (size / 4 * 4) := by
        rw [htake, List.take_append_drop]
      rw [← answers_append, ← hsplit, List.append_assoc, ← exchanges_append, ← hsplit]
    · rw [if_neg hrest]
      have : size / 4 * 4 = size := by omega
      rw [this]

/-- **C56**: for every length, data, peer and combination of source and sink, `transfer` opens one transaction, puts
exactly the source's first `length` bytes (or 0xFF) on the wire, in order and once each, stores the peer's answers at
the same positions of the sink, changes nothing beyond, closes the transaction and returns true. -/
theorem transfer_exact (peer : Peer) (tx rx : Option (List Byte)) (length : Nat) (bus : List Ev)
    (hnull : tx ≠ none ∨ rx ≠ none) (ht : Room tx length) (hr : Room rx length) :
    transfer peer tx rx length bus =
      .ok (true, rx.map (fun m => answers peer (sentBytes bus) (outgoing tx length) ++ m.drop length),
        bus ++ [.beginTransaction] ++ exchanges peer (sentBytes bus) (outgoing tx length) ++ [.endTransaction]) := by
  have hs : sentBytes (bus ++ [.beginTransaction]) = sentBytes bus := by
    rw [sentBytes_append]; simp [sentBytes]
  have key := move_ok peer tx rx length (bus ++ [.beginTransaction]) ht hr
  rw [hs] at key
  have hin : incoming rx (answers peer (sentBytes bus) (outgoing tx length)) =
      rx.map (fun m => answers peer (sentBytes bus) (outgoing tx length) ++ m.drop length) := by
    unfold incoming
    rw [answers_length, outgoing_length ht]
  rw [hin] at key
  unfold transfer
  cases tx with
  | none =>
    cases rx with
    | none => simp at hnull
    | some m => simp only [key, Res.bind_ok, Option.map_some]
  | some d =>
    cases rx with
    | none => simp only [key, Res.bind_ok]
    | some m => simp only [key, Res.bind_ok]

/-- Without source and sink nothing is transferred. -/
theorem transfer_null (peer : Peer) (length : Nat) (bus : List Ev) :
    transfer peer none none length bus = .ok (true, none, bus ++ [.beginTransaction] ++ [.endTransaction]) := rfl

/-- The peer's answer to the `i`-th byte depends on the bytes before it only, and is stored at position `i`. -/
theorem answers_get (peer : Peer) (before out : List Byte) (i : Nat) (h : i < out.length) :
    (answers peer before out)[i]? = some (peer (before ++ out.take i)) := by
  induction out generalizing before i with
  | nil => simp at h
  | cons b bs ih =>
    cases i with
    | zero => simp [answers]
    | succ i =>
      simp only [answers, List.getElem?_cons_succ]
      rw [ih _ _ (by simpa using h)]
      simp

/-- The events on the wire carry the bytes in order. -/
theorem exchanges_get (peer : Peer) (before out : List Byte) (i : Nat) (h : i < out.length) :
    (exchanges peer before out)[i]? = some (.exchange out[i] (peer (before ++ out.take i))) := by
  induction out generalizing before i with
  | nil => simp at h
  | cons b bs ih =>
    cases i with
    | zero => simp [exchanges]
    | succ i =>
      simp only [exchanges, List.getElem?_cons_succ]
      rw [ih _ _ (by simpa using h)]
      simp

/-- Five bytes to a peer which answers with the number of bytes it has seen. -/
example : transfer (fun l => BitVec.ofNat 8 l.length) (some [10, 20, 30, 40, 50, 60]) (some [9, 9, 9, 9, 9, 9]) 5 [] =
    .ok (true, some [0, 1, 2, 3, 4, 9], [.beginTransaction, .exchange 10 0, .exchange 20 1, .exchange 30 2,
      .exchange 40 3, .exchange 50 4, .endTransaction]) := by decide

end Verif.Spi.Arduino

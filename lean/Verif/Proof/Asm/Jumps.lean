import Verif.Proof.Asm.Emit
import Verif.Props.Asm.Operands

/-!
# Addresses in the finished code

Helper lemmas.
-/

namespace DuckLisp.Asm

open DuckLisp DuckLisp.VM DuckLisp.Spec DuckLisp.Props

theorem names_eq (i : Ins) : names i = labelOf i := by cases i <;> rfl

theorem signed_wrap (w : Width) (d : Int) : signed w (d % 256 ^ w.bytes).toNat = wrapTo w d := by
  unfold signed wrapTo
  cases w <;> simp only [Width.bytes] <;> simp <;> split <;> omega

theorem wrap_eq {w : Width} {d : Int} :
    wrapTo w d = d ↔ -2 ^ (8 * w.bytes - 1) ≤ d ∧ d < 2 ^ (8 * w.bytes - 1) := by
  unfold wrapTo
  cases w <;> simp only [Width.bytes] <;> simp <;> omega

/-- How the machine reads an instruction with an address. -/
theorem decode_addressed {i : Ins} {l : Nat} {o : Opc} {suffix : Bytes}
    (h : linked i = some (l, o, suffix)) (hf : InFormat i) (w : Width) (d : Int) :
    ∃ m, addressed w (wrapTo w d) i = some m ∧
      ∀ rest, decode (code o w :: (bytesOf d w.bytes ++ suffix) ++ rest) = some (m, rest) := by
  cases i <;> try (cases h; done)
  case jump l' =>
    cases h
    refine ⟨_, rfl, fun rest => ?_⟩
    rw [List.append_nil, List.cons_append, decode_code ((by decide : AllSizes .jump) w)]
    simp only [decodeArgs]
    rw [dec_bind (operand_bytesOf d w rest), signed_wrap]
    rfl
  case brnz l' pops =>
    cases h
    refine ⟨_, rfl, fun rest => ?_⟩
    rw [List.cons_append, decode_code ((by decide : AllSizes .brnz) w), List.append_assoc]
    simp only [decodeArgs]
    rw [dec_bind (operand_bytesOf d w _), signed_wrap, dec_bind (byte_octet hf rest)]
    rfl
  case call l' n =>
    cases h
    refine ⟨_, rfl, fun rest => ?_⟩
    rw [List.cons_append, decode_code ((by decide : AllSizes .call) w), List.append_assoc]
    simp only [decodeArgs]
    rw [dec_bind (operand_bytesOf d w _), signed_wrap, dec_bind (byte_octet hf rest)]
    rfl
  case pushClosure variadic l' arity captures =>
    obtain ⟨h1, h2, h3⟩ := hf
    refine ⟨_, rfl, fun rest => ?_⟩
    have hlen : Dec.operand .w32 (bytesOf (captures.length : Int) 4 ++
        ((captures.flatMap fun c => bytesOf c 4) ++ rest)) =
        some (captures.length, (captures.flatMap fun c => bytesOf c 4) ++ rest) := by
      have := operand_fits (w := .w32) (x := (captures.length : Int)) (fits32.2 h2)
        ((captures.flatMap fun c => bytesOf c 4) ++ rest)
      rw [Int.toNat_natCast] at this
      exact this
    have hops : Dec.operands .w32 captures.length ((captures.flatMap fun c => bytesOf c 4) ++ rest) =
        some (captures.map (fun c => (c % 2 ^ 32).toNat), rest) :=
      operands_bytesOf (w := .w32) captures rest
    cases variadic <;> cases h
    · rw [if_neg (by decide), List.cons_append, decode_code ((by decide : AllSizes .pushClosure) w)]
      simp only [decodeArgs, decodeArgs.closure, List.append_assoc]
      rw [dec_bind (operand_bytesOf d w _), dec_bind (byte_octet h1 _), dec_bind hlen,
        dec_bind hops, signed_wrap]
      rfl
    · rw [if_pos rfl, List.cons_append, decode_code ((by decide : AllSizes .pushVaClosure) w)]
      simp only [decodeArgs, decodeArgs.closure, List.append_assoc]
      rw [dec_bind (operand_bytesOf d w _), dec_bind (byte_octet h1 _), dec_bind hlen,
        dec_bind hops, signed_wrap]
      rfl

/-- Where the address leads, if it is `d`. -/
theorem landing_addressed {i : Ins} {l : Nat} {o : Opc} {suffix : Bytes}
    (h : linked i = some (l, o, suffix)) {w : Width} {d here next there : Int}
    (hn : next = here + 1 + w.bytes + suffix.length) (ht : there = here + 1 + w.bytes + d) :
    ∃ m, addressed w d i = some m ∧ landing here next m = some there := by
  cases i <;> try (cases h; done)
  case jump =>
    cases h
    refine ⟨_, rfl, ?_⟩
    simp only [landing, Option.some.injEq, List.length_nil] at hn ⊢
    omega
  case brnz =>
    cases h
    refine ⟨_, rfl, ?_⟩
    simp only [landing, Option.some.injEq, bytesOf_length] at hn ⊢
    omega
  case call =>
    cases h
    refine ⟨_, rfl, ?_⟩
    simp only [landing, Option.some.injEq, bytesOf_length] at hn ⊢
    omega
  case pushClosure =>
    refine ⟨_, rfl, ?_⟩
    simp only [landing, Option.some.injEq]
    omega

/-! ### Pieces -/

/-- The pieces of the finished code. -/
def finals (zs : List (Link × Link)) : Nat → List Bytes → List Bytes
  | _, [] => []
  | p, c :: cs => expand zs p c :: finals zs (p + c.length) cs

theorem finals_length (zs : List (Link × Link)) : ∀ (p : Nat) (cs : List Bytes),
    (finals zs p cs).length = cs.length
  | _, [] => rfl
  | p, c :: cs => by simp [finals, finals_length zs (p + c.length) cs]

theorem finals_flatten (zs : List (Link × Link)) : ∀ (p : Nat) (cs : List Bytes),
    (finals zs p cs).flatten = expand zs p cs.flatten
  | _, [] => rfl
  | p, c :: cs => by
    simp only [finals, List.flatten_cons]
    rw [finals_flatten zs (p + c.length) cs, expand_append]

theorem finals_get (zs : List (Link × Link)) : ∀ (p : Nat) (cs : List Bytes) (k : Nat) (c : Bytes),
    cs[k]? = some c → (finals zs p cs)[k]? = some (expand zs (p + pos cs k) c)
  | p, [], k, c, h => by simp at h
  | p, x :: cs, 0, c, h => by
    simp only [List.getElem?_cons_zero, Option.some.injEq] at h
    subst h
    simp [finals, pos_zero]
  | p, x :: cs, k + 1, c, h => by
    simp only [List.getElem?_cons_succ] at h
    simp only [finals, List.getElem?_cons_succ]
    rw [finals_get zs (p + x.length) cs k c h, pos_cons]
    simp only [Nat.add_assoc]

theorem finals_take (zs : List (Link × Link)) : ∀ (p : Nat) (cs : List Bytes) (k : Nat),
    (finals zs p cs).take k = finals zs p (cs.take k)
  | _, [], k => by simp [finals]
  | _, _, 0 => by simp [finals]
  | p, c :: cs, k + 1 => by simp [finals, finals_take zs (p + c.length) cs k]

theorem offset_finals {zs : List (Link × Link)} (hd : Distinct zs) (cs : List Bytes) (k : Nat) :
    (offset (finals zs 0 cs) k : Int) = pos cs k + inserted zs 0 (pos cs k) := by
  unfold offset
  rw [finals_take, finals_flatten]
  have := expand_length hd 0 (cs.take k).flatten
  simp only [Int.natCast_zero, Int.zero_add] at this
  exact this

theorem get_zip {α β : Type} : ∀ (as : List α) (bs : List β), as.length = bs.length → ∀ a ∈ as,
    ∃ b, (a, b) ∈ as.zip bs
  | [], _, _, _, h => by cases h
  | x :: as, [], hl, _, _ => by simp at hl
  | x :: as, y :: bs, hl, a, h => by
    rcases List.mem_cons.1 h with rfl | h
    · exact ⟨y, by simp⟩
    · obtain ⟨b, hb⟩ := get_zip as bs (by simpa using hl) a h
      exact ⟨b, by simp [hb]⟩

theorem apart_of {links : List Link} (h : links.Pairwise fun a b => a.source ≠ b.source) :
    Apart links := by
  intro i j o p hi hj he
  obtain ⟨hil, rfl⟩ := List.getElem?_eq_some_iff.1 hi
  obtain ⟨hjl, rfl⟩ := List.getElem?_eq_some_iff.1 hj
  rw [List.pairwise_iff_getElem] at h
  rcases Nat.lt_trichotomy i j with hlt | heq | hgt
  · exact absurd he (h i j hil hjl hlt)
  · exact heq
  · exact absurd he.symm (h j i hjl hil hgt)

theorem distinct_zip {old new : List Link} (hl : old.length = new.length)
    (h : old.Pairwise fun a b => a.source ≠ b.source) : Distinct (old.zip new) := by
  have : (old.zip new).map Prod.fst = old := List.map_fst_zip (Nat.le_of_eq hl)
  rw [← this, List.pairwise_map] at h
  exact h

theorem addrOf_mem {zs : List (Link × Link)} (hd : Distinct zs) {z : Link × Link} (hz : z ∈ zs)
    {p : Nat} (hp : z.1.source = (p : Int) + 1) : addrOf zs p = some z.2 := by
  induction zs with
  | nil => cases hz
  | cons y zs ih =>
    unfold addrOf
    rw [List.find?_cons]
    rcases List.mem_cons.1 hz with rfl | hz
    · simp [hp]
    · have hne := List.rel_of_pairwise_cons hd hz
      have : ¬ y.1.source = (p : Int) + 1 := by rw [← hp]; exact hne
      simp only [this, decide_false]
      exact ih (List.Pairwise.of_cons hd) hz

theorem zip_mem_laid {old new : List Link} (hl : Laid old new) {z : Link × Link}
    (hz : z ∈ old.zip new) : z.2.source = z.1.source + before old new z.1.source ∧
      z.2.target = z.1.target + before old new (z.1.target + 1) := by
  obtain ⟨i, hi, rfl⟩ := List.mem_iff_getElem.1 hz
  rw [List.length_zip] at hi
  have h1 : i < old.length := by omega
  have h2 : i < new.length := by omega
  have := hl.at_ i old[i] new[i] (List.getElem?_eq_getElem h1) (List.getElem?_eq_getElem h2)
  simpa using this

/-- The sizes as operand sizes. -/
theorem chosen_width {n : Nat} (h : Chosen n) : ∃ w : Width, w.bytes = n ∧ ∀ o,
    o ∈ [Opc.pushClosure, .pushVaClosure, .call, .jump, .brnz] → code o .w8 + bump n = code o w := by
  rcases h with rfl | rfl | rfl
  · exact ⟨.w8, rfl, by decide⟩
  · exact ⟨.w16, rfl, by decide +kernel⟩
  · exact ⟨.w32, rfl, by decide +kernel⟩

theorem linked_opc {i : Ins} {l : Nat} {o : Opc} {suffix : Bytes} (h : linked i = some (l, o, suffix)) :
    o ∈ [Opc.pushClosure, .pushVaClosure, .call, .jump, .brnz] := by
  cases i <;> try (cases h; done)
  case pushClosure v _ _ _ => cases v <;> cases h <;> decide
  all_goals (cases h; decide)

/-- Everything about the finished code in which addresses are as short as they can be made. -/
theorem resolve_spec {strip : Bool} {n : Nat} {s : Emit} {is : List Ins} {cs : List Bytes}
    {bytes : Bytes} (he : Emission strip false n s is cs) (h : resolve s = .ok bytes) :
    ∃ new : List Link, (linksOf s.labels).length = new.length ∧ Laid (linksOf s.labels) new ∧
      (∀ c ∈ new, Chosen c.size) ∧
      (∀ k, Short (linksOf s.labels) k → ∀ c ∈ new, c.size = 1) ∧
      bytes = expand ((linksOf s.labels).zip new) 0 s.bytes := by
  have hz : ∀ o ∈ linksOf s.labels, o.size = 0 := fun o ho => (he.link o ho).1
  unfold resolve at h
  dsimp only at h
  split at h
  · rename_i hnil
    cases h
    refine ⟨[], by rw [hnil], ?_, by simp, by simp, ?_⟩
    · rw [hnil]; exact laid_start [] (by simp)
    · rw [hnil, expand_none _ _ _ fun q _ _ => rfl]
  · rename_i hne
    obtain ⟨order, ho, hord⟩ := ordered_sortedEnds (linksOf s.labels)
    rw [ho] at h
    have hap := apart_of he.apart
    have hlaid := laid_passes hap hord 10 _ (laid_start _ hz)
    have hch := chosen_passes hap hord 9 _ (laid_start _ hz)
    generalize hnew : passes order 10 (linksOf s.labels) = new at hlaid
    have hch : ∀ c ∈ new, Chosen c.size := by rw [← hnew]; exact hch
    have h : (insertLinks ((linksOf s.labels).zip new) (nodesFrom 0 s.bytes) >>= fun nodes =>
      flatten nodes (nodes.length + 1) (some 0)) = .ok bytes := by rw [← hnew]; exact h
    rcases hi : insertLinks ((linksOf s.labels).zip new) (nodesFrom 0 s.bytes) with nodes | e | _ | _
    · rw [hi] at h
      have h : flatten nodes (nodes.length + 1) (some 0) = .ok bytes := h
      have hsite : Sites s.bytes ((linksOf s.labels).zip new) := by
        intro z hzm
        obtain ⟨h1, h2⟩ := List.of_mem_zip hzm
        obtain ⟨_, k, i, l, hk, hl, hsrc, _, _⟩ := he.link z.1 h1
        have hkl : k < cs.length := by rw [he.len]; exact (List.getElem?_eq_some_iff.1 hk).1
        have hck := List.getElem?_eq_getElem hkl
        have hpos := chunk_names_ne (he.chunk k i _ hk hck) hl
        have h4 := pos_succ hck
        have h5 := pos_le cs (k + 1)
        rw [he.bytes]
        exact ⟨by omega, by omega, hch z.2 h2⟩
      have hbne : s.bytes ≠ [] := by
        intro hb
        obtain ⟨o, ho⟩ := List.exists_mem_of_ne_nil _ hne
        obtain ⟨b, hb'⟩ := get_zip _ new hlaid.length.symm o ho
        obtain ⟨h1, h2, _⟩ := hsite _ hb'
        rw [hb] at h2
        simp only [List.length_nil, Int.natCast_zero] at h1 h2
        omega
      have hd := distinct_zip hlaid.length.symm he.apart
      rw [insert_flatten hbne hd hsite hi] at h
      cases h
      refine ⟨new, hlaid.length.symm, hlaid, hch, fun k hk c hc => ?_, rfl⟩
      have h1 := short_passes hap hord hk 10 _ (laid_start _ hz) (fun c hc => by rw [hz c hc]; omega)
      rw [hnew] at h1
      have h2 := h1 c hc
      rcases hch c hc with h3 | h3 | h3 <;> omega
    all_goals rw [hi] at h; cases h

end DuckLisp.Asm

import Verif.Model.Derive
import Verif.Model.CApi
import Verif.Spec.Position

/- Client programs of the crate: what calls they can make, and with which arguments.

Integers, `bool`s and enum values can be written down as literals, so clients have all of them;
all other values have to come out of earlier calls. -/

namespace ShogiCore

/-- Values with private representation. -/
inductive Val where
  | sq (s : Square) | pc (p : Piece) | hand (h : Hand) | mv (m : Move) | cmv (c : CompactMove)
  | bb (b : Bitboard) | bsb (b : ByteSwappedBitboard)
  | pos (p : PartialPosition) | position (p : Position) | pgame (g : PartialGame) | game (g : Game)
  | osq (o : OptionSquare) | opc (o : OptionPiece) | okind (o : OptionPieceKind)
  | ocmv (o : OptionCompactMove) | ogr (o : OptionGameResolution)
  | rimk (r : ResultUnitIllegalMoveKind)

/-- What a caller gets out of an `Option`. -/
def Val.opt {α : Type} (f : α → Val) : Option α → List Val
  | none => []
  | some a => [f a]

/-- A sink that neither panics nor causes undefined behaviour (it may report errors). -/
def Calm (W : Type) [Write W] : Prop := ∀ (w : W) (s : List U8), ∃ r, Write.write_str w s = .ok r

variable [Profile]

/-- The calls: `ApiCall args act` says that `act` is a call of one function of the crate with
the arguments `args` (listing only arguments with private representation), returning all values
the caller has afterwards, including the new contents of `&mut` arguments.  For `unsafe`
functions the documented contract is a premise. -/
inductive ApiCall : List Val → Res (List Val) → Prop
  -- Color
  | color_flip (c : Color) : ApiCall [] (do let _ ← c.flip; return [])
  | color_array_index (c : Color) : ApiCall [] (do let _ ← c.array_index; return [])
  | color_to_usi {W : Type} [Write W] (c : Color) (w : W) : Calm W →
      ApiCall [] (do let _ ← c.to_usi w; return [])
  -- PieceKind
  | kind_from_u8 (v : U8) : ApiCall [] (do let _ ← PieceKind.from_u8 v; return [])
  | kind_from_u8_unchecked (v : U8) : 1 ≤ v.toNat ∧ v.toNat ≤ 14 →
      ApiCall [] (do let _ ← PieceKind.from_u8_unchecked v; return [])
  | kind_array_index (k : PieceKind) : ApiCall [] (do let _ ← k.array_index; return [])
  | kind_to_usi {W : Type} [Write W] (k : PieceKind) (w : W) : Calm W →
      ApiCall [] (do let _ ← k.to_usi w; return [])
  | kind_from_u8_c (v : U8) : ApiCall [] (do return [.okind (← PieceKind_from_u8 v)])
  | kind_promote_c (k : PieceKind) : ApiCall [] (.ok [.okind (PieceKind_promote k)])
  | kind_unpromote_c (k : PieceKind) : ApiCall [] (.ok [.okind (PieceKind_unpromote k)])
  | kind_option (o : Option PieceKind) : ApiCall [] (.ok [.okind (.ofOption o)])
  | kind_of_option (o : OptionPieceKind) : ApiCall [.okind o] (do let _ ← o.toOption; return [])
  -- GameResolution, IllegalMoveKind
  | resolution_from_u8_unchecked (v : U8) : 1 ≤ v.toNat ∧ v.toNat ≤ 5 →
      ApiCall [] (do let _ ← GameResolution.from_u8_unchecked v; return [])
  | resolution_default : ApiCall [] (.ok [.ogr .default])
  | resolution_option (o : Option GameResolution) : ApiCall [] (.ok [.ogr (.ofOption o)])
  | resolution_of_option (o : OptionGameResolution) :
      ApiCall [.ogr o] (do let _ ← o.toOption; return [])
  | illegal_from_u8 (v : U8) : ApiCall [] (do let _ ← IllegalMoveKind.from_u8 v; return [])
  | illegal_from_u8_unchecked (v : U8) : 1 ≤ v.toNat ∧ v.toNat ≤ 7 →
      ApiCall [] (do let _ ← IllegalMoveKind.from_u8_unchecked v; return [])
  | illegal_default : ApiCall [] (.ok [.rimk .default])
  | illegal_option (o : Option IllegalMoveKind) : ApiCall [] (.ok [.rimk (.ofOption o)])
  | illegal_of_option (r : ResultUnitIllegalMoveKind) :
      ApiCall [.rimk r] (do let _ ← r.toOption; return [])
  | illegal_result (r : Except IllegalMoveKind Unit) : ApiCall [] (.ok [.rimk (.ofResult r)])
  | illegal_of_result (r : ResultUnitIllegalMoveKind) :
      ApiCall [.rimk r] (do let _ ← r.toResult; return [])
  -- Square
  | square_new (f r : U8) : ApiCall [] (do return Val.opt .sq (← Square.new f r))
  | square_new_c (f r : U8) : ApiCall [] (do return [.osq (← Square_new f r)])
  | square_new_relative (f r : U8) (c : Color) :
      ApiCall [] (do return Val.opt .sq (← Square.new_relative f r c))
  | square_new_relative_c (f r : U8) (c : Color) :
      ApiCall [] (do return [.osq (← Square_new_relative f r c)])
  | square_const (name : String) (v : Nat) : (name, v) ∈ square_consts_assoc →
      ApiCall [] (do return [.sq (← Square.const name)])
  | square_file (s : Square) : ApiCall [.sq s] (do let _ ← s.file; return [])
  | square_rank (s : Square) : ApiCall [.sq s] (do let _ ← s.rank; return [])
  | square_index (s : Square) : ApiCall [.sq s] (do let _ ← s.index; return [])
  | square_relative_file (s : Square) (c : Color) :
      ApiCall [.sq s] (do let _ ← s.relative_file c; return [])
  | square_relative_rank (s : Square) (c : Color) :
      ApiCall [.sq s] (do let _ ← s.relative_rank c; return [])
  | square_flip (s : Square) : ApiCall [.sq s] (do return [.sq (← s.flip)])
  | square_from_u8 (v : U8) : ApiCall [] (.ok (Val.opt .sq (Square.from_u8 v)))
  | square_from_u8_unchecked (v : U8) : 1 ≤ v.toNat ∧ v.toNat ≤ 81 →
      ApiCall [] (do return [.sq (← Square.from_u8_unchecked v)])
  | square_shift (s : Square) (df dr : I8) :
      ApiCall [.sq s] (do return Val.opt .sq (← s.shift df dr))
  | square_array_index (s : Square) : ApiCall [.sq s] (do let _ ← s.array_index; return [])
  | square_all : ApiCall [] (do return (← Square.all).map .sq)
  | square_to_usi {W : Type} [Write W] (s : Square) (w : W) : Calm W →
      ApiCall [.sq s] (do let _ ← s.to_usi w; return [])
  | square_some (s : Square) : ApiCall [.sq s] (.ok [.osq (.ofOption (some s))])
  | square_none : ApiCall [] (.ok [.osq (.ofOption none)])
  | square_of_option (o : OptionSquare) : ApiCall [.osq o] (.ok (Val.opt .sq o.toOption))
  -- Piece
  | piece_new (k : PieceKind) (c : Color) : ApiCall [] (do return [.pc (← Piece.new k c)])
  | piece_const (name k c : String) : (name, k, c) ∈ piece_consts_assoc →
      ApiCall [] (do return [.pc (← Piece.const name)])
  | piece_to_parts (p : Piece) : ApiCall [.pc p] (do let _ ← p.to_parts; return [])
  | piece_kind (p : Piece) : ApiCall [.pc p] (do let _ ← p.piece_kind; return [])
  | piece_color (p : Piece) : ApiCall [.pc p] (do let _ ← p.color; return [])
  | piece_promote (p : Piece) : ApiCall [.pc p] (do return Val.opt .pc (← p.promote))
  | piece_promote_c (p : Piece) : ApiCall [.pc p] (do return [.opc (← Piece_promote p)])
  | piece_unpromote (p : Piece) : ApiCall [.pc p] (do return Val.opt .pc (← p.unpromote))
  | piece_unpromote_c (p : Piece) : ApiCall [.pc p] (do return [.opc (← Piece_unpromote p)])
  | piece_array_index (p : Piece) : ApiCall [.pc p] (do let _ ← p.array_index; return [])
  | piece_all : ApiCall [] (do return (← Piece.all).toList.map .pc)
  | piece_to_usi {W : Type} [Write W] (p : Piece) (w : W) : Calm W →
      ApiCall [.pc p] (do let _ ← p.to_usi w; return [])
  | piece_some (p : Piece) : ApiCall [.pc p] (.ok [.opc (.ofOption (some p))])
  | piece_none : ApiCall [] (.ok [.opc (.ofOption none)])
  | piece_of_option (o : OptionPiece) : ApiCall [.opc o] (.ok (Val.opt .pc o.toOption))
  -- Hand
  | hand_new : ApiCall [] (.ok [.hand Hand.new])
  | hand_added (h : Hand) (k : PieceKind) :
      ApiCall [.hand h] (do return Val.opt .hand (← h.added k))
  | hand_removed (h : Hand) (k : PieceKind) :
      ApiCall [.hand h] (do return Val.opt .hand (← h.removed k))
  | hand_count (h : Hand) (k : PieceKind) : ApiCall [.hand h] (do let _ ← h.count k; return [])
  | hand_add_c (h : Hand) (k : PieceKind) :
      ApiCall [.hand h] (do let (h, _) ← h.Hand_add k; return [.hand h])
  | hand_remove_c (h : Hand) (k : PieceKind) :
      ApiCall [.hand h] (do let (h, _) ← h.Hand_remove k; return [.hand h])
  | hand_count_c (h : Hand) (k : PieceKind) :
      ApiCall [.hand h] (do let _ ← h.Hand_count k; return [])
  | hand_all : ApiCall [] (do let _ ← Hand.all_hand_pieces; return [])
  | hand_to_usi {W : Type} [Write W] (b w : Hand) (s : W) : Calm W →
      ApiCall [.hand b, .hand w] (do let _ ← Hand.to_usi2 #v[b, w] s; return [])
  -- Move, CompactMove
  | move_normal (s t : Square) (pr : Bool) : ApiCall [.sq s, .sq t] (.ok [.mv (.Normal s t pr)])
  | move_drop (p : Piece) (t : Square) : ApiCall [.pc p, .sq t] (.ok [.mv (.Drop p t)])
  | move_from (m : Move) : ApiCall [.mv m] (.ok (Val.opt .sq m.src))
  | move_to (m : Move) : ApiCall [.mv m] (.ok [.sq m.to])
  | move_piece (p : Piece) (t : Square) : ApiCall [.mv (.Drop p t)] (.ok [.pc p, .sq t])
  | move_to_usi {W : Type} [Write W] (m : Move) (w : W) : Calm W →
      ApiCall [.mv m] (do let _ ← m.to_usi w; return [])
  | compact_of_move (m : Move) : ApiCall [.mv m] (do return [.cmv (← CompactMove.ofMove m)])
  | compact_to_move (c : CompactMove) : ApiCall [.cmv c] (do return [.mv (← c.toMove)])
  | compact_normal (s t : Square) (pr : Bool) :
      ApiCall [.sq s, .sq t] (do return [.cmv (← CompactMove.normal s t pr)])
  | compact_drop (p : Piece) (t : Square) :
      ApiCall [.pc p, .sq t] (do return [.cmv (← CompactMove.drop p t)])
  | compact_from (c : CompactMove) : ApiCall [.cmv c] (do return Val.opt .sq (← c.src))
  | compact_from_c (c : CompactMove) : ApiCall [.cmv c] (do return [.osq (← CompactMove_from c)])
  | compact_to (c : CompactMove) : ApiCall [.cmv c] (do return [.sq (← c.to)])
  | compact_to_usi {W : Type} [Write W] (c : CompactMove) (w : W) : Calm W →
      ApiCall [.cmv c] (do let _ ← c.to_usi w; return [])
  | compact_some (c : CompactMove) : ApiCall [.cmv c] (.ok [.ocmv (.ofOption (some c))])
  | compact_none : ApiCall [] (.ok [.ocmv (.ofOption none)])
  | compact_of_option (o : OptionCompactMove) : ApiCall [.ocmv o] (.ok (Val.opt .cmv o.toOption))
  -- Bitboard
  | bb_empty : ApiCall [] (.ok [.bb .empty])
  | bb_single (s : Square) : ApiCall [.sq s] (do return [.bb (← Bitboard.single s)])
  | bb_count (b : Bitboard) : ApiCall [.bb b] (do let _ ← b.count; return [])
  | bb_contains (b : Bitboard) (s : Square) :
      ApiCall [.bb b, .sq s] (do let _ ← b.contains s; return [])
  | bb_flip (b : Bitboard) : ApiCall [.bb b] (.ok [.bb b.flip])
  | bb_pop (b : Bitboard) :
      ApiCall [.bb b] (do let (b, o) ← b.pop; return .bb b :: Val.opt .sq o)
  | bb_pop_c (b : Bitboard) :
      ApiCall [.bb b] (do let (b, o) ← Bitboard_pop b; return [.bb b, .osq o])
  | bb_iterate (b : Bitboard) (fuel : Nat) : ApiCall [.bb b] (do
      match ← b.iterate fuel with
      | some l => return l.map .sq
      | none => return [])
  | bb_from_u128 (a : U128) : (Bitboard.from_u128_unchecked a).Canonical →
      ApiCall [] (.ok [.bb (.from_u128_unchecked a)])
  | bb_from_file (f : U8) (p : U16) : 1 ≤ f.toNat ∧ f.toNat ≤ 9 → p.toNat < 512 →
      ApiCall [] (do return [.bb (← Bitboard.from_file_unchecked f p)])
  | bb_get_file (b : Bitboard) (f : U8) : 1 ≤ f.toNat ∧ f.toNat ≤ 9 →
      ApiCall [.bb b] (do let _ ← b.get_file_unchecked f; return [])
  | bb_or (a b : Bitboard) : ApiCall [.bb a, .bb b] (.ok [.bb (a.or b)])
  | bb_and (a b : Bitboard) : ApiCall [.bb a, .bb b] (.ok [.bb (a.and b)])
  | bb_xor (a b : Bitboard) : ApiCall [.bb a, .bb b] (.ok [.bb (a.xor b)])
  | bb_andnot (a b : Bitboard) : ApiCall [.bb a, .bb b] (.ok [.bb (a.andnot b)])
  | bb_bitand (a b : Bitboard) : ApiCall [.bb a, .bb b] (.ok [.bb (a.bitand b)])
  | bb_bitor (a b : Bitboard) : ApiCall [.bb a, .bb b] (.ok [.bb (a.bitor b)])
  | bb_bitxor (a b : Bitboard) : ApiCall [.bb a, .bb b] (.ok [.bb (a.bitxor b)])
  | bb_not (a : Bitboard) : ApiCall [.bb a] (.ok [.bb a.not])
  | bb_and_sq (a : Bitboard) (s : Square) :
      ApiCall [.bb a, .sq s] (do return [.bb (← a.bitand_assign_sq s)])
  | bb_or_sq (a : Bitboard) (s : Square) :
      ApiCall [.bb a, .sq s] (do return [.bb (← a.bitor_assign_sq s)])
  | bb_xor_sq (a : Bitboard) (s : Square) :
      ApiCall [.bb a, .sq s] (do return [.bb (← a.bitxor_assign_sq s)])
  | bb_shift_down (b : Bitboard) (d : U8) : d.toNat ≤ 9 →
      ApiCall [.bb b] (do return [.bb (← b.shift_down d)])
  | bb_shift_up (b : Bitboard) (d : U8) : d.toNat ≤ 9 →
      ApiCall [.bb b] (do return [.bb (← b.shift_up d)])
  | bb_shift_left (b : Bitboard) (d : U8) : d.toNat ≤ 9 →
      ApiCall [.bb b] (do return [.bb (← b.shift_left d)])
  /-- Narrower than the documented contract `0..=9` (C22). -/
  | bb_shift_right (b : Bitboard) (d : U8) : 2 ≤ d.toNat ∧ d.toNat ≤ 9 →
      ApiCall [.bb b] (do return [.bb (← b.shift_right d)])
  | bb_swap (b : Bitboard) : ApiCall [.bb b] (.ok [.bsb b.swap_bytes])
  | bsb_default : ApiCall [] (.ok [.bsb ⟨0, 0⟩])
  | bsb_from_u128 (a : U128) : (ByteSwappedBitboard.from_u128_unchecked a).swap_bytes.Canonical →
      ApiCall [] (.ok [.bsb (.from_u128_unchecked a)])
  | bsb_or (a b : ByteSwappedBitboard) : ApiCall [.bsb a, .bsb b] (.ok [.bsb (a.or b)])
  | bsb_and (a b : ByteSwappedBitboard) : ApiCall [.bsb a, .bsb b] (.ok [.bsb (a.and b)])
  | bsb_xor (a b : ByteSwappedBitboard) : ApiCall [.bsb a, .bsb b] (.ok [.bsb (a.xor b)])
  | bsb_andnot (a b : ByteSwappedBitboard) : ApiCall [.bsb a, .bsb b] (.ok [.bsb (a.andnot b)])
  | bsb_swap (a : ByteSwappedBitboard) : ApiCall [.bsb a] (.ok [.bb a.swap_bytes])
  -- PartialPosition
  | pos_empty : ApiCall [] (.ok [.pos .empty])
  | pos_startpos : ApiCall [] (do return [.pos (← PartialPosition.startpos)])
  | pos_side_set (p : PartialPosition) (c : Color) :
      ApiCall [.pos p] (.ok [.pos (p.side_to_move_set c)])
  | pos_ply_set (p : PartialPosition) (n : U16) : ApiCall [.pos p] (.ok [.pos (p.ply_set n).1])
  | pos_hand_of (p : PartialPosition) (c : Color) :
      ApiCall [.pos p] (do return [.hand (← p.hand_of_a_player c)])
  | pos_hand_mut (p : PartialPosition) (c : Color) (h : Hand) :
      ApiCall [.pos p, .hand h] (do return [.pos (← p.hand_of_a_player_mut_assign c h)])
  | pos_hand (p : PartialPosition) (x : Piece) :
      ApiCall [.pos p, .pc x] (do let _ ← p.hand x; return [])
  | pos_piece_at (p : PartialPosition) (s : Square) :
      ApiCall [.pos p, .sq s] (do return Val.opt .pc (← p.piece_at s))
  | pos_piece_at_c (p : PartialPosition) (s : Square) :
      ApiCall [.pos p, .sq s] (do return [.opc (← p.PartialPosition_piece_at s)])
  | pos_piece_set (p : PartialPosition) (s : Square) (x : Piece) :
      ApiCall [.pos p, .sq s, .pc x] (do return [.pos (← p.piece_set s (some x))])
  | pos_piece_clear (p : PartialPosition) (s : Square) :
      ApiCall [.pos p, .sq s] (do return [.pos (← p.piece_set s none)])
  | pos_occupied (p : PartialPosition) : ApiCall [.pos p] (.ok [.bb p.occupied_bitboard])
  | pos_vacant (p : PartialPosition) : ApiCall [.pos p] (.ok [.bb p.vacant_bitboard])
  | pos_player_bb (p : PartialPosition) (c : Color) :
      ApiCall [.pos p] (do return [.bb (← p.player_bitboard c)])
  | pos_piece_bb (p : PartialPosition) (x : Piece) :
      ApiCall [.pos p, .pc x] (do return [.bb (← p.piece_bitboard x)])
  | pos_kind_bb (p : PartialPosition) (k : PieceKind) :
      ApiCall [.pos p] (do return [.bb (← p.piece_kind_bitboard k)])
  | pos_last_move (p : PartialPosition) :
      ApiCall [.pos p] (do return Val.opt .mv (← p.get_last_move))
  | pos_last_compact (p : PartialPosition) :
      ApiCall [.pos p] (.ok (Val.opt .cmv p.last_compact_move))
  | pos_last_compact_c (p : PartialPosition) :
      ApiCall [.pos p] (.ok [.ocmv p.PartialPosition_last_compact_move])
  | pos_king (p : PartialPosition) (c : Color) :
      ApiCall [.pos p] (do return Val.opt .sq (← p.king_position c))
  | pos_make_move (p : PartialPosition) (m : Move) :
      ApiCall [.pos p, .mv m] (do let (p, _) ← p.make_move m; return [.pos p])
  | pos_make_compact (p : PartialPosition) (c : CompactMove) :
      ApiCall [.pos p, .cmv c] (do let (p, _) ← p.make_compact_move c; return [.pos p])
  | pos_to_sfen {W : Type} [Write W] (p : PartialPosition) (w : W) : Calm W →
      ApiCall [.pos p] (do let _ ← p.to_sfen w; return [])
  | pos_to_sfen_owned (p : PartialPosition) :
      ApiCall [.pos p] (do let _ ← p.to_sfen_owned; return [])
  /-- The buffer has 236 writable bytes; the documented 139 are not enough for all positions
  (C37). -/
  | pos_to_sfen_c (p : PartialPosition) (m : Mem) (ptr : Nat) : (∀ k < 236, m (ptr + k) ≠ none) →
      ApiCall [.pos p] (do let _ ← p.to_sfen_c m ptr; return [])
  -- Position
  | position_startpos : ApiCall [] (do return [.position (← Position.startpos)])
  | position_default : ApiCall [] (do return [.position (← Position.default)])
  | position_arbitrary (p : PartialPosition) :
      ApiCall [.pos p] (.ok [.position (.arbitrary_position p)])
  | position_inner (q : Position) : ApiCall [.position q] (.ok [.pos q.get_inner])
  | position_initial (q : Position) : ApiCall [.position q] (.ok [.pos q.initial_position])
  | position_hand_of (q : Position) (c : Color) :
      ApiCall [.position q] (do return [.hand (← q.hand_of_a_player c)])
  | position_hand_mut (q : Position) (c : Color) (h : Hand) :
      ApiCall [.position q, .hand h] (do return [.position (← q.hand_of_a_player_mut_assign c h)])
  | position_hand (q : Position) (x : Piece) :
      ApiCall [.position q, .pc x] (do let _ ← q.hand x; return [])
  | position_piece_at (q : Position) (s : Square) :
      ApiCall [.position q, .sq s] (do return Val.opt .pc (← q.piece_at s))
  | position_piece_at_c (q : Position) (s : Square) :
      ApiCall [.position q, .sq s] (do return [.opc (← q.Position_piece_at s)])
  | position_piece_set (q : Position) (s : Square) (x : Piece) :
      ApiCall [.position q, .sq s, .pc x] (do return [.position (← q.piece_set s (some x))])
  | position_piece_clear (q : Position) (s : Square) :
      ApiCall [.position q, .sq s] (do return [.position (← q.piece_set s none)])
  | position_occupied (q : Position) : ApiCall [.position q] (.ok [.bb q.occupied_bitboard])
  | position_vacant (q : Position) : ApiCall [.position q] (.ok [.bb q.vacant_bitboard])
  | position_player_bb (q : Position) (c : Color) :
      ApiCall [.position q] (do return [.bb (← q.player_bitboard c)])
  | position_piece_bb (q : Position) (x : Piece) :
      ApiCall [.position q, .pc x] (do return [.bb (← q.piece_bitboard x)])
  | position_last_move (q : Position) :
      ApiCall [.position q] (do return Val.opt .mv (← q.last_move))
  | position_last_compact (q : Position) :
      ApiCall [.position q] (.ok (Val.opt .cmv q.last_compact_move))
  | position_last_compact_c (q : Position) :
      ApiCall [.position q] (.ok [.ocmv q.Position_last_compact_move])
  | position_moves (q : Position) : ApiCall [.position q] (.ok (q.get_moves.map .mv))
  | position_make_move (q : Position) (m : Move) :
      ApiCall [.position q, .mv m] (do let (q, _) ← q.make_move m; return [.position q])
  | position_make_compact (q : Position) (c : CompactMove) :
      ApiCall [.position q, .cmv c] (do let (q, _) ← q.make_compact_move c; return [.position q])
  | position_to_sfen_owned (q : Position) :
      ApiCall [.position q] (do let _ ← q.to_sfen_owned; return [])
  | position_to_sfen_c (q : Position) (m : Mem) (ptr : Nat) :
      (∀ k < 236, m (ptr + k) ≠ none) →
      ApiCall [.position q] (do let _ ← q.to_sfen_c m ptr; return [])
  -- PartialGame, Game
  | pgame_default : ApiCall [] (do return [.pgame (← PartialGame.default)])
  | pgame_position (g : PartialGame) : ApiCall [.pgame g] (.ok [.pos g.position])
  | pgame_resolve (g : PartialGame) (r : GameResolution) :
      ApiCall [.pgame g] (.ok [.pgame (g.resolve r)])
  | pgame_unresolve (g : PartialGame) : ApiCall [.pgame g] (.ok [.pgame g.unresolve])
  | pgame_resolution (g : PartialGame) :
      ApiCall [.pgame g] (do let _ ← g.get_resolution; return [])
  | pgame_resolution_c (g : PartialGame) : ApiCall [.pgame g] (.ok [.ogr g.PartialGame_resolution])
  | game_default : ApiCall [] (do return [.game (← Game.default)])
  | game_position (g : Game) : ApiCall [.game g] (.ok [.position g.position])
  | game_resolve (g : Game) (r : GameResolution) : ApiCall [.game g] (.ok [.game (g.resolve r)])
  | game_unresolve (g : Game) : ApiCall [.game g] (.ok [.game g.unresolve])
  | game_resolution (g : Game) : ApiCall [.game g] (do let _ ← g.get_resolution; return [])
  | game_resolution_c (g : Game) : ApiCall [.game g] (.ok [.ogr g.Game_resolution])

/-- Executions of client programs: `Execution vs` says that some program, choosing its next call
freely in view of everything it has, has got hold of the values `vs`. -/
inductive Execution : List Val → Prop
  | start : Execution []
  | call {vs args act new} : Execution vs → ApiCall args act → (∀ a ∈ args, a ∈ vs) →
      act = .ok new → Execution (vs ++ new)

end ShogiCore

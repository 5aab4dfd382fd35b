{"id": "C01", "title": "Square coordinates are a bijection", "statement": "Square::new(file, rank) returns Some exactly when both arguments are in 1..=9; the returned square reports exactly that file and rank, its index is 9*file+rank-9, and every square is new(file(), rank()) of itself; two squares with equal file and rank are equal.", "quantifier": "all 65536 (u8,u8) argument pairs, all 81 squares, both build profiles (overflow checks on / off)", "why_tests_cant": "the test loops run one build profile and never check surjectivity or absence of arithmetic overflow in the multiply-shift division", "anchors": ["shogi_core/src/square.rs: Square::new, Square::file, Square::rank, Square::index"]}
{"id": "C02", "title": "Square byte encoding round-trips", "statement": "Square::from_u8(v) is Some(s) exactly when 1<=v<=81, and then s.index()=v; from_u8(s.index())=Some(s) for every square; array_index is index-1 and lies in 0..81; Square::all yields each square exactly once in ascending index order.", "quantifier": "all 256 bytes and all squares", "why_tests_cant": "the intent is a bijection over the whole value space, plus absence of undefined behaviour in the unchecked constructors", "anchors": ["shogi_core/src/square.rs: Square::from_u8, Square::from_u8_unchecked, Square::index, Square::array_index, Square::all"]}
{"id": "C03", "title": "Square::shift never wraps around", "statement": "s.shift(df, dr) is Some(t) exactly when (file+df, rank+dr) computed in unbounded integers is on the board, and then t has exactly those coordinates; otherwise None. No i8 wrap-around can make an off-board result look on-board.", "quantifier": "all squares and all 65536 (i8,i8) deltas, including -128 and 127", "why_tests_cant": "the repository's own test stops at delta 126 (exclusive range); the claim includes the extreme deltas and overflow of the i8 arithmetic", "anchors": ["shogi_core/src/square.rs: Square::shift"]}
{"id": "C04", "title": "Square flip and relative coordinates are the 180-degree rotation", "statement": "flip is an involution mapping (f,r) to (10-f,10-r); relative_file/relative_rank for White equal file/rank of the flipped square and for Black the plain ones; new_relative(f,r,c) is the unique square whose relative coordinates for c are (f,r), and is None exactly off 1..=9.", "quantifier": "all squares, colours and u8 pairs", "why_tests_cant": "relates five functions to each other for every input", "anchors": ["shogi_core/src/square.rs: Square::flip, Square::new_relative, Square::relative_file, Square::relative_rank"]}
{"id": "C05", "title": "Generated constants name the right values", "statement": "For each of the 81 generated names SQ_<file><rank letter>, the constant equals Square::new(file, rank); for each of the 28 names <B|W>_<kind>, the constant equals Piece::new of the kind and colour that the name denotes; names are pairwise distinct.", "quantifier": "every generated constant", "why_tests_cant": "the constants are produced by a build script; tests use only some of them", "anchors": ["shogi_core/build.rs: generate_square_consts, generate_piece_consts"]}
{"id": "C06", "title": "Promotion and un-promotion are mutually inverse", "statement": "k.promote()=Some(k') iff k'.unpromote()=Some(k); promote is None exactly for gold, king and already promoted kinds; unpromote is None exactly for unpromoted kinds; Piece::promote/unpromote act on the kind and never change the colour.", "quantifier": "all piece kinds, colours and pieces", "why_tests_cant": "algebraic law relating functions; holds for all values", "anchors": ["shogi_core/src/piece_kind.rs: PieceKind::promote, PieceKind::unpromote", "shogi_core/src/piece.rs: Piece::promote, Piece::unpromote"]}
{"id": "C07", "title": "Piece is exactly a (kind, colour) pair", "statement": "to_parts(new(k,c))=(k,c), new(to_parts p)=p, representation bytes are exactly 1..=14 and 17..=30, Piece::all lists all 28 pieces exactly once, array indices stay in bounds.", "quantifier": "all kinds, colours, and all valid representation bytes", "why_tests_cant": "bijection over the value space and absence of UB in the enum transmute", "anchors": ["shogi_core/src/piece.rs: Piece::new, Piece::to_parts, Piece::all, Piece::as_u8"]}
{"id": "C08", "title": "C-compatible option encodings are lossless", "statement": "Converting Option<Square>, Option<Piece>, Option<PieceKind>, Option<CompactMove>, Option<GameResolution>, and Result<(),IllegalMoveKind> to their C byte/word types and back yields the same value; None/Ok is 0 and only that; PieceKind::from_u8 / IllegalMoveKind::from_u8 accept exactly the documented ranges.", "quantifier": "all values of the six types, all bytes", "why_tests_cant": "round-trip for every value, plus no invalid enum is ever transmuted", "anchors": ["shogi_core/src/square.rs: OptionSquare", "shogi_core/src/piece.rs: OptionPiece", "shogi_core/src/piece_kind.rs: OptionPieceKind, PieceKind::from_u8", "shogi_core/src/mv.rs: OptionCompactMove", "shogi_core/src/game_resolution.rs: OptionGameResolution", "shogi_core/src/illegal_move_kind.rs: ResultUnitIllegalMoveKind"]}
{"id": "C09", "title": "A hand is a multiset of hand pieces", "statement": "After any sequence of added/removed calls starting from the empty hand, as long as no count exceeds 255, the count of each kind is the number of successful additions minus removals of that kind; adding or removing one kind never affects another; removal fails exactly when the count is zero; king and promoted kinds are always refused and count is None for them.", "quantifier": "all finite sequences of add/remove operations", "why_tests_cant": "unbounded operation histories", "anchors": ["shogi_core/src/hand.rs: Hand::new, Hand::added, Hand::removed, Hand::count"]}
{"id": "C10", "title": "Hand addition wraps at 256 and removal inverts addition", "statement": "added(k) increments modulo 256 for every hand (documented wrap-around); removed(k) after added(k) restores the original hand exactly unless the count was 255; added after a successful removed always restores; Hand_add/Hand_remove return false exactly when the Rust method returns None and then leave the hand unmodified.", "quantifier": "all hands and kinds", "why_tests_cant": "all 256^7 hands", "anchors": ["shogi_core/src/hand.rs: Hand::added, Hand::removed, Hand::Hand_add, Hand::Hand_remove, Hand::Hand_count"]}
{"id": "C11", "title": "Hand equality is equality of counts", "statement": "Two hands obtained from any sequences of hand operations compare equal iff all seven counts agree (the unused eighth byte never leaks into equality).", "quantifier": "all pairs of operation histories", "why_tests_cant": "unbounded histories; the eighth byte is invisible through the API", "anchors": ["shogi_core/src/hand.rs: PartialEq for Hand, Hand::as_u64"]}
{"id": "C12", "title": "Move <-> CompactMove is lossless", "statement": "Converting any Move to CompactMove and back gives the same Move; the packed word is the documented formula (promote*32768+from*256+to, or piece*256+128+to), is non-zero, and distinct moves have distinct words; CompactMove::normal/drop agree with the conversion.", "quantifier": "all moves (all squares, pieces, promote flags)", "why_tests_cant": "bijection over every move and absence of UB in unpacking", "anchors": ["shogi_core/src/mv.rs: From<Move> for CompactMove, From<CompactMove> for Move, CompactMove::normal, CompactMove::drop"]}
{"id": "C13", "title": "CompactMove accessors agree with Move accessors", "statement": "from, to, is_promoting and is_drop give the same answers on a move and on its compact form.", "quantifier": "all moves", "why_tests_cant": "all 13122+2268 values and both representations", "anchors": ["shogi_core/src/mv.rs: Move::from, Move::to, Move::is_promoting, Move::is_drop, CompactMove::from, CompactMove::to, CompactMove::is_promoting, CompactMove::is_drop"]}
{"id": "C14", "title": "USI text of a move is unambiguous", "statement": "An independent USI move parser recovers every normal move exactly and every drop up to the dropped piece's colour; two moves have the same USI text iff they are equal up to the colour of a dropped piece; among the moves accepted in one position the text determines the move.", "quantifier": "all pairs of moves, all positions", "why_tests_cant": "injectivity over all pairs", "anchors": ["shogi_core/src/mv.rs: ToUsi for Move", "shogi_core/src/square.rs: ToUsi for Square", "shogi_core/src/piece_kind.rs: ToUsi for PieceKind"]}
{"id": "C15", "title": "Bitboard operators are the Boolean set operations", "statement": "For every square: membership in a&b, a|b, a^b, !a, andnot, empty and single is respectively intersection, union, symmetric difference, complement, difference, nothing, exactly that square; the assigning and C variants agree.", "quantifier": "all bitboards (2^81 sets) and all squares", "why_tests_cant": "2^162 pairs of operands", "anchors": ["shogi_core/src/bitboard.rs: define_bit_trait!, Not for Bitboard, Bitboard::or, and, xor, andnot, single, empty, contains"]}
{"id": "C16", "title": "Bitboards are extensional", "statement": "Every bitboard produced by any expression over empty, single, the Boolean operators, flip, pop, file construction and the up/down/left shifts has a canonical representation: two such bitboards are == iff they contain the same squares.", "quantifier": "all finite expressions / histories building a bitboard", "why_tests_cant": "unbounded expression trees; a single stray bit outside the 81 squares breaks equality silently", "anchors": ["shogi_core/src/bitboard.rs: Bitboard (all constructors), PartialEq for Bitboard"]}
{"id": "C17", "title": "Bitboard count is cardinality", "statement": "count() is the number of squares contained and is_empty() holds iff no square is contained, for every canonical bitboard.", "quantifier": "all canonical bitboards", "why_tests_cant": "2^81 values", "anchors": ["shogi_core/src/bitboard.rs: Bitboard::count, Bitboard::is_empty"]}
{"id": "C18", "title": "pop removes exactly one member and iteration enumerates the set", "statement": "pop returns None iff the board is empty; otherwise it returns a member and removes precisely that square; iterating until None terminates and yields every member exactly once, in ascending index order, count() items in total.", "quantifier": "all canonical bitboards; the iteration is of unbounded shape", "why_tests_cant": "2^81 sets and all iteration lengths", "anchors": ["shogi_core/src/bitboard.rs: Bitboard::pop, Iterator for Bitboard"]}
{"id": "C19", "title": "Bitboard::flip rotates the set", "statement": "s is in b.flip() iff s.flip() is in b; flip is an involution.", "quantifier": "all canonical bitboards and squares", "why_tests_cant": "tests only check singletons; bit-mixing across the two words matters for sets", "anchors": ["shogi_core/src/bitboard.rs: Bitboard::flip"]}
{"id": "C20", "title": "shift_down / shift_up translate the set along ranks", "statement": "For delta 0..=9, (f,r) is in b.shift_down(delta) iff r-delta>=1 and (f,r-delta) is in b; symmetric for shift_up; nothing leaks into a neighbouring file and the result is canonical.", "quantifier": "all canonical bitboards, all deltas 0..=9", "why_tests_cant": "2^81 values times 10 deltas; tests use one pattern", "anchors": ["shogi_core/src/bitboard.rs: Bitboard::shift_down, Bitboard::shift_up"]}
{"id": "C21", "title": "shift_left translates the set along files", "statement": "For delta 0..=9, (f,r) is in b.shift_left(delta) iff f-delta>=1 and (f-delta,r) is in b; the result is canonical.", "quantifier": "all canonical bitboards, all deltas 0..=9", "why_tests_cant": "2^81 values; tests use one pattern", "anchors": ["shogi_core/src/bitboard.rs: Bitboard::shift_left"]}
{"id": "C22", "title": "shift_right translates the set along files", "statement": "For delta 0..=9, (f,r) is in b.shift_right(delta) iff f+delta<=9 and (f+delta,r) is in b; and the result is canonical (so count, pop, == and iteration are right) unless delta is 0 and 8a is in b, or delta is 1 and 9a is in b. (In exactly those cases the function, documented for 0..=9, leaves a stray bit: shift_right(0) is then not the identity, count is one too high and pop panics or yields a square that is not a member.)", "quantifier": "all canonical bitboards, all deltas 0..=9", "why_tests_cant": "2^81 values; the one test pattern has 8a and 9a empty and so misses a stray bit", "anchors": ["shogi_core/src/bitboard.rs: Bitboard::shift_right"]}
{"id": "C23", "title": "File patterns round-trip", "statement": "from_file_unchecked(f,pattern) contains exactly the squares of file f whose rank bit is set; get_file_unchecked(f) reads back exactly the rank bits of file f of any board; composing them is the identity and reading another file gives 0.", "quantifier": "all files 1..=9, all 512 patterns, all bitboards", "why_tests_cant": "all bitboards", "anchors": ["shogi_core/src/bitboard.rs: Bitboard::from_file_unchecked, Bitboard::get_file_unchecked"]}
{"id": "C24", "title": "Byte swapping and u128 conversion are lossless and commute with set operations", "statement": "from_u128_unchecked(to_u128 b)=b; swap_bytes twice is the identity; or/and/xor/andnot on byte-swapped boards equal the byte swap of the operation on the boards; to_u128 of the swap is the byte reversal of to_u128.", "quantifier": "all bitboards and pairs", "why_tests_cant": "2^128 words", "anchors": ["shogi_core/src/bitboard.rs: Bitboard::swap_bytes, ByteSwappedBitboard, to_u128, from_u128_unchecked"]}
{"id": "C25", "title": "Bitboards always agree with piece_at", "statement": "After any sequence of make_move, make_compact_move, piece_set, hand edits, side_to_move_set and ply_set from empty() or startpos(): a square is in piece_bitboard(p) iff piece_at returns p; in player_bitboard(c) iff a piece of colour c is there; in piece_kind_bitboard(k) iff a piece of kind k is there; occupied iff any piece, vacant iff none.", "quantifier": "all finite operation sequences from both constructors", "why_tests_cant": "unbounded histories over redundant state", "anchors": ["shogi_core/src/position.rs: PartialPosition::piece_set, make_move, piece_bitboard, player_bitboard, piece_kind_bitboard, occupied_bitboard, vacant_bitboard"]}
{"id": "C26", "title": "piece_set is a pointwise update", "statement": "After piece_set(s,x), piece_at(s)=x and piece_at of every other square, both hands, side, ply and last move are unchanged.", "quantifier": "all positions, squares, optional pieces", "why_tests_cant": "all positions", "anchors": ["shogi_core/src/position.rs: PartialPosition::piece_set, piece_at"]}
{"id": "C27", "title": "A rejected move leaves the position untouched", "statement": "If make_move (or make_compact_move) reports failure, the whole position, including every observable and its equality, is exactly as before.", "quantifier": "all positions and all moves", "why_tests_cant": "all positions times all moves; each early return after a mutation would break it", "anchors": ["shogi_core/src/position.rs: PartialPosition::make_move, make_compact_move, Position::make_move, Position::make_compact_move"]}
{"id": "C28", "title": "make_move accepts exactly the moves that make sense", "statement": "A normal move is accepted iff the source holds a piece of the side to move, the destination is empty or holds an enemy non-king piece, and promotion is requested only for a promotable piece; a drop is accepted iff the piece belongs to the side to move, is an unpromoted non-king kind, the destination is empty and the mover's hand has at least one.", "quantifier": "all positions reachable by API calls and all moves", "why_tests_cant": "all positions times moves", "anchors": ["shogi_core/src/position.rs: PartialPosition::make_move"]}
{"id": "C29", "title": "make_move has exactly the documented effect", "statement": "On success: the source is vacated and the destination holds the moved (promoted if requested) piece, a captured piece appears unpromoted in the mover's hand, a dropped piece leaves the hand, all other squares and the other hand are unchanged, last_move is the move, side flips, ply advances by one modulo 65536.", "quantifier": "all positions and accepted moves", "why_tests_cant": "complete frame condition over all positions", "anchors": ["shogi_core/src/position.rs: PartialPosition::make_move, last_move, last_compact_move"]}
{"id": "C30", "title": "Pieces are conserved through any game", "statement": "From the starting position, after any sequence of make_move calls (accepted or rejected), for each unpromoted kind the number on the board (promoted counted as its base) plus both hands is constant: 18 pawns, 4 lances, 4 knights, 4 silvers, 4 golds, 2 bishops, 2 rooks, 2 kings; hence no hand counter ever wraps.", "quantifier": "all finite move sequences from startpos", "why_tests_cant": "unbounded histories", "anchors": ["shogi_core/src/position.rs: PartialPosition::make_move, startpos", "shogi_core/src/hand.rs: Hand::added"]}
{"id": "C31", "title": "king_position reports the king", "statement": "In every game from startpos each colour has exactly one king on the board, king_position(c) is its square, and kings are never captured or dropped. (Claimed for arbitrary piece_set histories it is false: removing the king leaves a stale answer.)", "quantifier": "all finite move sequences from startpos; all API histories for the refuted version", "why_tests_cant": "unbounded histories of a cached field", "anchors": ["shogi_core/src/position.rs: PartialPosition::king_position, piece_set, make_move"]}
{"id": "C32", "title": "Turn and ply bookkeeping", "statement": "After n accepted moves the side to move is the initial side flipped n times and ply is the initial ply plus n modulo 65536; rejected moves change neither; ply_set succeeds iff its argument is non-zero and then sets it, otherwise changes nothing.", "quantifier": "all move sequences and all initial positions", "why_tests_cant": "unbounded histories including 16-bit wrap-around", "anchors": ["shogi_core/src/position.rs: PartialPosition::make_move, ply, ply_set, side_to_move, side_to_move_set"]}
{"id": "C33", "title": "Position replays its moves", "statement": "For every Position obtained by move calls from arbitrary_position(p): initial_position is p, moves() lists exactly the accepted moves in order, inner() is the result of playing moves() from p, and last_move() is the last of moves() (or p's own last move if there are none).", "quantifier": "all initial positions and all move sequences", "why_tests_cant": "unbounded histories", "anchors": ["shogi_core/src/position.rs: Position::make_move, moves, inner, initial_position, arbitrary_position, last_move"]}
{"id": "C34", "title": "make_compact_move is make_move", "statement": "For every position and every compact move that came from a move, make_compact_move gives the same verdict and the same resulting position as make_move.", "quantifier": "all positions and moves", "why_tests_cant": "all positions times moves", "anchors": ["shogi_core/src/position.rs: PartialPosition::make_compact_move, Position::make_compact_move"]}
{"id": "C35", "title": "startpos is the shogi starting array", "statement": "piece_at, hands, side, ply and last move of startpos are those of the standard initial position (given independently as a diagram), its precomputed player bitboards and king squares agree with it, and Default is startpos.", "quantifier": "all squares and all observables of the starting position", "why_tests_cant": "consistency of precomputed constants with the board for every square", "anchors": ["shogi_core/src/position.rs: PartialPosition::startpos, STARTPOS_BLACK_BB, STARTPOS_WHITE_BB, empty, Default"]}
{"id": "C36", "title": "SFEN is lossless", "statement": "An independent SFEN parser recovers the board, side to move, both hands and ply from to_sfen of any position; hence equal SFEN strings imply equal board, side, hands and ply.", "quantifier": "all positions with arbitrary boards, hands (0..255 each) and ply (0..65535)", "why_tests_cant": "injectivity over all positions", "anchors": ["shogi_core/src/position.rs: PartialPosition::to_sfen, to_sfen_owned", "shogi_core/src/hand.rs: ToUsi for [Hand; 2]", "shogi_core/src/piece.rs: ToUsi for Piece"]}
{"id": "C37", "title": "to_sfen_c fits the documented buffer", "statement": "For every position reached by moves from startpos, to_sfen_c writes at most 139 bytes including the NUL. (For arbitrary positions built with piece_set and hand edits the documented bound is false; the exact bound is 236.)", "quantifier": "all move sequences from startpos; all positions for the general bound", "why_tests_cant": "unbounded histories; buffer overflow safety", "anchors": ["shogi_core/src/position.rs: PartialPosition::to_sfen_c, Position::to_sfen_c"]}
{"id": "C38", "title": "to_sfen_c writes the SFEN bytes, a NUL, and nothing else", "statement": "For every position and pointer, memory after to_sfen_c holds the SFEN bytes followed by 0 starting at the pointer, and every other address is unchanged; no byte of the text is NUL.", "quantifier": "all positions, memories and pointers", "why_tests_cant": "all memories", "anchors": ["shogi_core/src/position.rs: PartialPosition::to_sfen_c, Bridge"]}
{"id": "C39", "title": "Formatting fails iff the sink fails, and stops there", "statement": "For every sink behaviour, to_usi/to_sfen issue a fixed sequence of chunks, stop at the first failing write and return Err iff one of the attempted writes failed; the owned string is the concatenation of the chunks.", "quantifier": "all values, all sinks and all failure points", "why_tests_cant": "every failure point of every sink", "anchors": ["shogi_core/src/to_usi.rs: ToUsi::to_usi, ToUsi::to_usi_owned", "shogi_core/src/common.rs: write_u8, write_u16, write_ascii_byte", "shogi_core/src/position.rs: PartialPosition::to_sfen"]}
{"id": "C40", "title": "Numbers are printed in canonical decimal", "statement": "The decimal text written for every u8 and u16 consists of digits, has no leading zero (except 0 itself) and denotes the value.", "quantifier": "all u8 and u16 values", "why_tests_cant": "all values, both profiles, no overflow", "anchors": ["shogi_core/src/common.rs: write_u8, write_u16"]}
{"id": "C41", "title": "Piece and hand USI text is unambiguous", "statement": "Distinct pieces have distinct, non-prefix-overlapping USI texts (upper case iff black, leading plus iff promoted); hand text lists R B G S N L P of black then white with counts, is '-' iff both hands are empty, and determines both hands.", "quantifier": "all pieces and all pairs of hands", "why_tests_cant": "256^14 hand pairs", "anchors": ["shogi_core/src/piece.rs: ToUsi for Piece", "shogi_core/src/hand.rs: ToUsi for [Hand; 2]", "shogi_core/src/piece_kind.rs: ToUsi for PieceKind", "shogi_core/src/color.rs: ToUsi for Color"]}
{"id": "C42", "title": "No move is legal once the game is not in progress", "statement": "For every LegalityChecker implementor using the provided methods: if status(position) is not InProgress then is_legal is Err(GameFinished), is_legal_lite is false, all_legal_moves is empty and make_move returns Err(GameFinished) leaving the position unchanged; otherwise the provided methods agree with the partial ones on the inner position.", "quantifier": "all implementors, positions and moves", "why_tests_cant": "universally quantified over trait implementations", "anchors": ["shogi_core/src/legality.rs: LegalityChecker::is_legal, is_legal_lite, all_legal_moves, make_move"]}
{"id": "C43", "title": "Checked games contain only legal moves", "statement": "For every implementor that honours the documented contract (legal implies makeable), LegalityChecker::make_move returns Ok iff the move is legal, then performs it, and otherwise leaves the position unchanged; every move in a position built only by it was legal when played.", "quantifier": "all contract-abiding implementors and all move sequences", "why_tests_cant": "quantified over implementations and histories", "anchors": ["shogi_core/src/legality.rs: LegalityChecker::make_move, is_legal"]}
{"id": "C44", "title": "Ord is a total order consistent with Eq", "statement": "For each exported comparable type, cmp is reflexive, antisymmetric, transitive and total, partial_cmp is Some(cmp), <, <=, >, >=, max, min and clamp go by cmp, and cmp is Equal iff ==. (For PartialPosition and the types containing it the last part is false after piece_set removes a king; it holds for every position reached by moves from startpos.)", "quantifier": "all values and triples of values of every type", "why_tests_cant": "all triples; consistency of a hand-written field list with derived equality", "anchors": ["shogi_core/src/annotated_derive.rs: impl_ord_for_single_field!, impl_ord_with_fields!, impl_ord_for_fieldless_enum!", "shogi_core/src/mv.rs: Ord for Move", "shogi_core/src/position.rs: impl_ord_with_fields!(PartialPosition)"]}
{"id": "C45", "title": "Equal values hash equally", "statement": "For every exported hashable type, values that compare equal feed identical data to any Hasher.", "quantifier": "all pairs of values, all hashers", "why_tests_cant": "all pairs and all hashers", "anchors": ["shogi_core/src/annotated_derive.rs: impl_hash_for_single_field!, impl_hash_with_fields!, impl_hash_for_fieldless_enum!", "shogi_core/src/mv.rs: Hash for Move"]}
{"id": "C46", "title": "Position equality is observational", "statement": "Two positions reached by moves from startpos are == iff they agree on piece_at everywhere, hands, side, ply and last_move.", "quantifier": "all pairs of move sequences", "why_tests_cant": "all pairs of unbounded histories over redundant state", "anchors": ["shogi_core/src/position.rs: PartialPosition (derived PartialEq)"]}
{"id": "C47", "title": "Game resolution is last-writer-wins", "statement": "After any sequence of resolve/unresolve calls on a default Game or PartialGame, resolution() is the last resolution set, or None if none or last unset; position() is always the untouched default position.", "quantifier": "all sequences of resolve/unresolve", "why_tests_cant": "unbounded histories", "anchors": ["shogi_core/src/position.rs: Game, PartialGame", "shogi_core/src/game_resolution.rs: OptionGameResolution"]}
{"id": "C48", "title": "Safe API never panics and never reaches undefined behaviour", "statement": "Any client program made of safe API calls (and contract-respecting unsafe calls other than shift_right) on values obtained from the API never panics, with overflow checks and debug assertions on or off, never indexes out of bounds, and never reaches an unreachable_unchecked, an invalid enum transmute or a zero NonZero.", "quantifier": "all finite client programs, both build profiles", "why_tests_cant": "unbounded programs; UB is not observable by tests", "anchors": ["shogi_core/src/square.rs: sanity_check, from_u8_unchecked", "shogi_core/src/bitboard.rs: Bitboard::pop", "shogi_core/src/position.rs: get_unchecked uses", "shogi_core/README.md: Panicking"]}
{"id": "C49", "title": "Arena allocations never overlap", "statement": "For any number of concurrent alloc calls under any interleaving (including spurious CAS failures), successful allocations occupy pairwise disjoint byte ranges inside the arena, each of at least the requested size, and allocation fails exactly when the remaining space is too small or alignment exceeds 4096.", "quantifier": "all schedules of all threads, all layouts", "why_tests_cant": "thread interleavings", "anchors": ["shogi_core_c/src/no_std.rs: SimpleAllocator::alloc"]}
{"id": "C50", "title": "Arena allocations are aligned", "statement": "The offset of every successful allocation in the arena is a multiple of the requested (power of two) alignment, so its address is aligned if and only if the arena's own address is a multiple of that alignment. (The arena is a byte array of alignment 1, so GlobalAlloc's contract is met only when the linker happens to place it well; at an odd address the first allocation of alignment 2 is already misaligned.)", "quantifier": "all schedules, layouts and arena base addresses", "why_tests_cant": "depends on link-time placement of the arena", "anchors": ["shogi_core_c/src/no_std.rs: SimpleAllocator::alloc, ARENA_BSS"]}
{"id": "C51", "title": "Freestanding memory functions meet the C contract", "statement": "memcpy copies n bytes for non-overlapping regions and touches nothing else; memset/__bzero fill exactly n bytes with the low byte of c / zero; memcmp is 0 iff the regions are equal and otherwise has the sign of the first difference.", "quantifier": "all memories, addresses and lengths", "why_tests_cant": "unbounded n and all memories", "anchors": ["shogi_core_c/src/no_std.rs: memcpy, memset, memcmp, __bzero"]}
{"id": "C52", "title": "C wrappers agree with the Rust methods", "statement": "Each exported C function gives, under the documented byte encoding, the result of the Rust method it wraps, and a failed mutating wrapper leaves its argument unmodified.", "quantifier": "all arguments of all wrappers", "why_tests_cant": "all inputs", "anchors": ["shogi_core/src/square.rs: Square_new, Square_new_relative", "shogi_core/src/piece.rs: Piece_promote, Piece_unpromote", "shogi_core/src/bitboard.rs: Bitboard_pop, Bitboard_bitand", "shogi_core/src/position.rs: PartialPosition_piece_at, PartialPosition_last_compact_move", "shogi_core/src/mv.rs: CompactMove_from"]}
{"id": "C53", "title": "Positions refine an abstract shogi machine", "statement": "Calling make_move with any sequence of moves, well- or ill-chosen, gives exactly the verdicts of an abstract machine with unbounded counters and no redundant data, and the observers of the resulting position report the abstract state.", "quantifier": "all sequences of moves of any length", "why_tests_cant": "all sequences", "anchors": ["shogi_core/src/position.rs: PartialPosition::make_move, piece_at, hand, side_to_move, ply"]}
{"id": "C54", "title": "A game record determines the game", "statement": "If two Positions have the same record (SFEN of the initial position, USI text of every move), then they have the same moves and agree on initial and current board, hands, side and ply; with the same initial position they are equal.", "quantifier": "all initial positions and all games of any length", "why_tests_cant": "all pairs of games", "anchors": ["shogi_core/src/mv.rs: ToUsi for Move", "shogi_core/src/position.rs: Position::make_move, Position::moves, to_sfen_owned"]}
{"id": "C55", "title": "Position shows the replayed game", "statement": "Every observer of Position reports what the same observer of PartialPosition reports after replaying the accepted moves from the initial position.", "quantifier": "all observers, all games", "why_tests_cant": "all histories", "anchors": ["shogi_core/src/position.rs: Position::{side_to_move, ply, hand, piece_at, occupied_bitboard, vacant_bitboard, player_bitboard, piece_bitboard, last_move, to_sfen_owned, to_sfen_c}"]}
{"id": "C56", "title": "Moves lose nothing but the captured piece", "statement": "An accepted move can be taken back by anyone who knows the move and what it captured: two positions that reach agreeing positions by the same move with the same capture agree.", "quantifier": "all positions, all moves", "why_tests_cant": "all pairs of positions", "anchors": ["shogi_core/src/position.rs: PartialPosition::make_move"]}
{"id": "C57", "title": "Algebraic laws of bitboards", "statement": "Up to ==: the bitboard operators form a Boolean algebra with De Morgan and xor laws, counting satisfies inclusion-exclusion and complement, shifts compose, commute, distribute over | and &, and flip exchanges opposite shifts.", "quantifier": "all valid bitboards and all shift distances", "why_tests_cant": "2^81 bitboards per operand", "anchors": ["shogi_core/src/bitboard.rs"]}
{"id": "C58", "title": "Bitboards and squares move alike", "statement": "Shifting or flipping the bitboard of one square gives the bitboard of the shifted or flipped square, empty when Square::shift returns None.", "quantifier": "all squares and distances (shift_right outside the two cases of C22)", "why_tests_cant": "relates two implementations for all arguments", "anchors": ["shogi_core/src/bitboard.rs: shift_up, shift_down, shift_left, shift_right, flip", "shogi_core/src/square.rs: Square::shift, Square::flip"]}
{"id": "C59", "title": "Looping over a position's bitboards enumerates its board", "statement": "For every position reached through the API, iterating piece_bitboard, player_bitboard, piece_kind_bitboard, occupied_bitboard or vacant_bitboard yields exactly the squares on which piece_at reports such a piece (or none), in increasing index order, each once; the counts add up to 81.", "quantifier": "all positions reachable through the API, all pieces, kinds, colours", "why_tests_cant": "ranges over all call histories and relates the redundant board, bitboard and iterator representations", "anchors": ["shogi_core/src/position.rs: piece_bitboard, player_bitboard, piece_kind_bitboard, occupied_bitboard, vacant_bitboard, piece_at", "shogi_core/src/bitboard.rs: Iterator for Bitboard, count"]}
{"id": "C60", "title": "The two players are treated alike", "statement": "If two positions are images of each other under turning the board by 180 degrees and exchanging the colours, then the mirrored move gets the same verdict and the resulting positions are again images of each other, hence so for whole games; the bitboards of the image are the flipped bitboards of the other colour; every position with non-zero ply has such an image.", "quantifier": "all positions reachable through the API, all valid moves and move sequences", "why_tests_cant": "a relation between pairs of runs over all positions and moves", "anchors": ["shogi_core/src/position.rs: PartialPosition::make_move", "shogi_core/src/square.rs: Square::flip", "shogi_core/src/bitboard.rs: Bitboard::flip"]}
{"id": "C61", "title": "== on positions never reports a repetition", "statement": "After at least one and fewer than 65536 further accepted moves a position is never == to an earlier one of the same game, because == compares the move number; so == cannot be used to detect repetition (sennichite), although the same board, hands and side to move do recur. The bound is exact: after 65536 moves a position can be == to itself again. The move number has no influence on any move call except on the next move number.", "quantifier": "all positions reachable through the API, all sequences of accepted and rejected moves", "why_tests_cant": "a statement about all pairs of moments of all games, up to lengths of 65536 moves", "anchors": ["shogi_core/src/position.rs: PartialPosition (derived PartialEq), make_move"]}
{"id": "C62", "title": "Which positions there are", "statement": "The answers of piece_at, hand_of_a_player, side_to_move, ply, last_move and king_position of a position obtainable through the API fit together in exactly these ways and in no other: the last move, if any, goes from one square to a different one or drops a hand piece; ply is 0 only if there is a last move; king_position is Some for every colour that has a king on the board; and the two kings do not each stand on the square king_position reports for the other colour. Every combination of answers meeting this occurs, and the answers determine the position including its hidden fields.", "quantifier": "all combinations of observer results; all positions reachable by any sequence of API calls", "why_tests_cant": "both directions range over an unbounded set of call sequences; impossibility cannot be tested and realisability concerns astronomically many combinations", "anchors": ["shogi_core/src/position.rs: PartialPosition, piece_set, make_move, ply_set, king_position"]}
{"id": "C63", "title": "Setting up a position", "statement": "After any program of piece_set, hand_of_a_player_mut, side_to_move_set and ply_set calls, every square, hand, the side to move and the ply hold what was last written there (ply 0 being ignored) or else what was there before, last_move is unchanged and king_position is where the last king of the colour was placed. So programs with the same last writes give == positions, and the order of calls does not matter if no two write to the same place and no colour gets two kings. (With two kings of one colour it does: the results are not ==, although all squares agree.)", "quantifier": "all reachable positions, all finite programs of editing calls, all permutations of them", "why_tests_cant": "quantifies over all programs and all their permutations", "anchors": ["shogi_core/src/position.rs: piece_set, hand_of_a_player_mut, side_to_move_set, ply_set"]}
{"id": "C64", "title": "Arena blocks are private and never recycled", "statement": "Under any interleaving of allocations and of stores by block owners into their own blocks, every byte of a block of the no_std arena holds what the owner of that block last stored there, and zero if the owner has stored nothing there; nothing stored by others is ever visible in a new block. All requests ever granted, freed or not, add up to at most 128 KiB together with what remains, so at most 131072/n requests of n or more bytes are ever granted: a program that creates and destroys objects in a loop runs out of memory.", "quantifier": "all schedules, any number of threads, calls, layouts and stores", "why_tests_cant": "quantifies over all interleavings and unbounded programs", "anchors": ["shogi_core_c/src/no_std.rs: SimpleAllocator::alloc, dealloc, ARENA_BSS"]}
{"id": "C65", "title": "Growing and zeroing arena blocks", "statement": "The realloc and alloc_zeroed that the allocator inherits from core, running on the library's own memcpy and memset, are defined behaviour for blocks the allocator has granted: after realloc the new block starts with the contents of the old one, after alloc_zeroed the block is all zeros, and no byte of any other block and no byte outside the arena changes.", "quantifier": "all reachable allocator states, arena contents, base addresses, pairs of granted blocks and layouts", "why_tests_cant": "combines all schedules of the allocator with all memory contents and sizes", "anchors": ["shogi_core_c/src/no_std.rs: SimpleAllocator, memcpy, memset"]}
{"id": "C66", "title": "A game survives a USI position line", "statement": "Write a game as the line 'position sfen <to_sfen of the initial position> moves <to_usi of each move>', parse it with an independent parser, rebuild the initial position with piece_set, hand additions, side_to_move_set and ply_set, and play the moves with make_move: the receiver accepts and has the same moves and the same board, hands, side to move, move number at both ends, the same last move, and would send the same line. If the initial position has no last move and king_position reports exactly the kings on the board (as after startpos) the received Position is identical, hidden fields included. Sending a received game on gives the identical game. The receiver never panics, whatever bytes arrive. (If the move number of the initial position has wrapped to 0, the receiver ends up with 1, because ply_set refuses 0.)", "quantifier": "all positions reachable through the API, all games from them, all byte strings", "why_tests_cant": "ranges over all games and all input lines and composes writers, editing calls and move application", "anchors": ["shogi_core/src/position.rs: to_sfen_owned, Position::make_move, piece_set, hand_of_a_player_mut, side_to_move_set, ply_set", "shogi_core/src/to_usi.rs", "shogi_core/src/hand.rs: Hand::added"]}
{"id": "C67", "title": "Allocation makes progress", "statement": "A call of the no_std allocator that meets no spurious compare-exchange failure finishes within 262147 of its own steps, whatever the other calls do and however many there are. If p calls are in progress and no new ones start, then under every schedule they all finish after at most p*p+4p steps together, and the system can stop only when all have finished. A call has to retry only because another call was granted a block: if the counter differs between two moments, some call returned a new block in between. (compare_exchange_weak may fail spuriously; with unboundedly many such failures there is no bound.)", "quantifier": "all reachable allocator states, numbers of concurrent calls, layouts and schedules", "why_tests_cant": "liveness over all interleavings of any number of threads; a stress test sees a few schedules", "anchors": ["shogi_core_c/src/no_std.rs: SimpleAllocator::alloc (fetch_update loop)"]}
{"id": "C68", "title": "PartialPosition in the memory of a C program", "statement": "The struct PartialPosition declared in the C header has the same field offsets, size and alignment as the Rust struct, whatever the byte order and the alignment of uint64_t. A value written to an aligned accessible place is read back unchanged and nothing outside the struct changes; its side, board and hands bytes are the documented encodings of side_to_move, piece_at and the hand counts. A C program that initialises variables with PartialPosition_startpos, calls PartialPosition_make_compact_move, copies variables by assignment and calls PartialPosition_to_sfen_c with buffers of the documented 139 bytes has no undefined behaviour and does to each variable exactly what the Rust functions do to separate values; no other memory changes. memcmp never calls two different positions equal (it may call equal ones different, because of padding).", "quantifier": "all positions, memories, addresses, platforms (byte order, u64 alignment), and all C programs of these statements over any number of variables and buffers", "why_tests_cant": "ranges over all memory contents, placements and programs; layout tests run on one platform", "anchors": ["shogi_core/src/position.rs: PartialPosition, PartialPosition_startpos, make_compact_move, to_sfen_c", "include/shogi_core.h: struct PartialPosition, Hand, Bitboard", "shogi_core_c/src/no_std.rs: memcpy, memcmp"]}
{"id": "C69", "title": "Positions behind C handles", "statement": "With the no_std allocator, the objects behind all handles ever returned by Position_startpos lie in the arena, are pairwise disjoint, and no handle is returned twice, even after Position_destruct. A handle is live from its creation to its destruction; the position behind a live handle is the start position plus exactly the moves accepted through that handle, and each Position_make_compact_move on it succeeds or fails as it would in that game alone, whatever is done with other handles and by other threads allocating at the same time. Calls with live handles never panic. Destruction does not give memory back: in the life of the process only as many calls of Position_startpos ever return as Position objects fit into 128 KiB side by side, even if every position is destructed before the next is created, and that many do: at most 172 on 64-bit and 175 on 32-bit targets.", "quantifier": "all interleavings of allocator calls of any number of threads, creations, moves and destructions of any number of handles, and all layouts of Position", "why_tests_cant": "ranges over all histories and interleavings; tests use one or two handles on the host allocator", "anchors": ["shogi_core/src/position.rs: Position_startpos, Position_destruct, Position_make_compact_move", "shogi_core_c/src/no_std.rs: SimpleAllocator, alloc_error_handler"]}
{"id": "C70", "title": "What the orders order by", "statement": "Sorting and range queries see these orders. Squares: file, then rank. Pieces: owner, then kind. Enumerations: as declared. Move: board moves before drops; board moves by source, destination, promotion; drops by piece, destination. CompactMove: promotions last, then source index or piece code, then board moves before drops, then destination; it agrees with Move on two board moves without promotion and on two drops, and not in general. Hand: number of pawns, then lances, ..., rooks; a hand with at most as many of everything is never greater. PartialPosition: side to move, ply, Black's hand, White's hand, board square by square (empty, Black's pieces, White's pieces), last move. Position: initial position, current position, moves (a record before its continuations). Game and PartialGame: the record or position, then the resolution, unfinished first. The C option types: None first, then as the wrapped type; the result type: Ok first. Bitboard: the set holding the weightiest square on which the two differ is greater, where files 1-7 outweigh files 8-9 and among those later squares outweigh earlier ones; a subset is never greater; this is not the order of to_u128. Square::all, PieceKind::all, Color::all, Hand::all_hand_pieces and bitboard iteration are ascending; Piece::all is not.", "quantifier": "all pairs of valid values of every comparable type; for positions all values obtainable through the API, for records all move histories", "why_tests_cant": "all pairs over unbounded histories and 2^81 sets; tests compare a few literals", "anchors": ["shogi_core/src/annotated_derive.rs: impl_ord_for_single_field!, impl_ord_with_fields!, impl_ord_for_fieldless_enum!", "shogi_core/src/mv.rs: Ord for Move", "shogi_core/src/position.rs: impl_ord_with_fields!", "shogi_core/src/bitboard.rs: impl_ord_for_single_field!(Bitboard)", "shogi_core/src/piece.rs: Piece::all"]}
{"id": "C71", "title": "How long a game the C library can record", "statement": "In the no_std library every position ever created and every buffer its moves were ever kept in (also outgrown ones and those of destructed positions) stay paid for out of the 128 KiB arena: created positions times their size, plus for each handle the sizes of all buffers needed for the moves accepted through it, is at most 131072; and every game whose record fits can be recorded. The capacity behind a handle depends only on the number of moves accepted through it. Whatever the growth of Vec, all handles together never get more than 131072 / size_of(Move) moves accepted, so the move number of a boxed position never wraps: it is the number of accepted moves plus one. With Vec's doubling from 4 a handle never gets more than 16384 moves accepted (8192 if a Move takes 4 bytes): the next Position_make_compact_move of an acceptable move does not return; with 3 bytes, 16384 are reached.", "quantifier": "all interleavings of allocator calls of any number of threads, creations, moves and destructions of any number of handles; all layouts of Position and Move; all growth policies of Vec", "why_tests_cant": "needs games of thousands of moves on the freestanding allocator, and all histories", "anchors": ["shogi_core/src/position.rs: Position::make_move (moves.push), Position_make_compact_move, Position_destruct", "shogi_core_c/src/no_std.rs: SimpleAllocator, error_handler"]}
{"id": "C72", "title": "The C header describes the library", "statement": "Every prototype in include/shogi_core.h is that of exactly one exported function and every exported function has one; parameters have the same names and types in the same order, and parameters and results are passed the same way on both sides (size, alignment, offsets and kinds of all parts; pointers to the same struct, const exactly when the function may not write), except that Square_from_u8 and Square_shift return a byte but are declared to return an incomplete struct. The structs the header defines have the members of the Rust structs, laid out as rustc lays them out. Its enumerators have the values of the Rust variants of the same name and are exactly the bytes valid for the Rust type; its constants are those of the crate; no two declared names clash. Without casts and null pointers a C program can call exactly 74 of the 84 functions: not the two above, and not the eight on Game and PartialGame, because no expression of a C program ever has such a value or pointer. Without feature alloc the header still declares the functions on Position and Game, which are then not in the library.", "quantifier": "all prototypes, enumerators, structs and both byte orders and alignments of uint64_t; all expressions of C programs over the header", "why_tests_cant": "the C test calls five of the functions on one platform; that no program can obtain a Game is about all programs", "anchors": ["include/shogi_core.h: all declarations", "shogi_core/src/*.rs: extern \"C\" functions, #[repr] attributes", "cbindgen.toml"]}
{"id": "C73", "title": "Structs filled in by hand", "statement": "The header publishes the members of PartialPosition and no C function places pieces, so a C program sets up a position by filling the struct. (a) A struct can be obtained through the Rust API from startpos/empty by setters and moves exactly if: board bytes are documented codes, eighth hand bytes are zero, every bitboard has exactly the bits its name says (63 + 18 bits, no others), the last move is 0 or a move that could have been last, the move number is 0 only if there is a last move, each king square is at most 81 and not 0 if that player has a king on the board, and the two king squares do not hold each other's kings. (b) If only the board bytes and the eighth hand bytes are right, there is a properly made position that shows the same board, hands, side, move number and text, and whatever sequence of moves is played on both, each move is accepted on one exactly if on the other, with the documented effect, and the positions stay alike: bits of bitboards that were right stay right. (c) What was wrong is never repaired: a move changes bitboards only at its own two squares. (d) A move call is defined for all moves exactly if the low four bits of every nonzero board byte are 1 to 14, and the same for printing; otherwise some move, and printing, is undefined behaviour. (e) If the hands are empty and an eighth byte is not zero the text lacks the '-' of the empty hands although all counts are the same.", "quantifier": "all values of the struct with a valid side byte, all valid moves, all sequences of calls", "why_tests_cant": "a struct has about 10^700 values; the C test uses the starting position only", "anchors": ["include/shogi_core.h:455-464", "shogi_core/src/position.rs: make_move_, piece_set, to_sfen", "shogi_core/src/hand.rs: Hand::to_usi2"]}
{"id": "C74", "title": "Moves taken back with the setters", "statement": "There is no unmake_move, so a program that explores lines in place notes piece_at of the squares concerned, the mover's hand, the side to move and the move number before make_move, and later calls piece_set, hand_of_a_player_mut, side_to_move_set and ply_set. (a) If every king on the board is the one king_position knows of and the move number is not 0, this restores board, hands, side, move number and king_position for every accepted move, without failing; only the last move differs. (b) The difference is invisible in the SFEN and in every bitboard, and in both positions the same moves are accepted with results that are equal in every member, last move included. (c) So for every interleaving of makes, refusals and take-backs of any length: the node of a line is the same position whatever was explored before, and after unwinding everything the position is the original but for the last move. (d) In games from the starting position all kings are known to king_position, and the move number is 0 only after 65535, 131071, ... moves. (e) == says such positions differ unless the last moves happen to be the same. (f) With move number 0 (after 65535) the number comes back as 1; a king that king_position does not know of is known afterwards.", "quantifier": "all positions made through the API, all moves, all explorations of any length", "why_tests_cant": "explorations are unbounded; the repository has no test that combines setters with moves", "anchors": ["shogi_core/src/position.rs: make_move_, piece_set, hand_of_a_player_mut, side_to_move_set, ply_set"]}
{"id": "C75", "title": "Moves read off diagrams", "statement": "(a) From the boards before and after an accepted move and the colour that moved, one finds the move: the square an own piece has left (none for a drop), the square with a new own piece, and whether the piece changed (promotion). (b) So different accepted moves always lead to different boards. (c) Two games from the same position that show the same boards after every move are the same sequence of moves, although hands, side and last move were not compared.", "quantifier": "all positions made through the API (any pieces, any number of kings), all moves, games of any length", "why_tests_cant": "pairs of moves in all positions cannot be enumerated", "anchors": ["shogi_core/src/position.rs: make_move_"]}
{"id": "C76", "title": "A key for detecting repetitions", "statement": "== compares move number and last move, so it never detects sennichite (C61). (a) The SFEN text up to its last space is the same for two positions exactly if board, hands and side to move are the same. (b) After equal keys the same moves are accepted, and any sequence of moves gives equal keys again; so the key determines all of the future of the game that it shows. (c) The SFEN itself is no such key: within a game it does not recur for 65535 moves. (d) Keys do recur: after the rooks step aside and back the key of the starting position is there again.", "quantifier": "all pairs of positions made through the API, all sequences of moves", "why_tests_cant": "an equivalence over all pairs of positions", "anchors": ["shogi_core/src/position.rs: to_sfen_owned, make_move_, PartialEq of PartialPosition"]}
{"id": "C77", "title": "Transpositions", "statement": "(a) If two games from one position consist of moves such that on every square the same moves come by in the same order, then they lead to the same board, hands, side to move and move number, whatever the order of moves that do not meet (their intermediate positions may all differ). (b) If also every king on the board was the one king_position knows of, the positions differ in the last move at most; if the games end with the same move they are equal, also for ==. (c) In particular moves of which no two touch the same square may be played in any order that is accepted: the repetition key is the same. (d) Where moves meet on a square the order matters: there are two games with the same moves in another order and different boards.", "quantifier": "all positions made through the API, all pairs of games of any length", "why_tests_cant": "reorderings of games of any length cannot be enumerated", "anchors": ["shogi_core/src/position.rs: make_move_"]}
{"id": "C78", "title": "Debug texts", "statement": "(a) For every type with Debug, also inside Option and Vec, two values are == exactly if their {:?} texts are the same, exactly if their {:#?} texts are the same, and this even if all spaces and line breaks are dropped from the texts; no value, not even one with invalid bytes, makes the printing panic. (b) {:?} and {:#?} differ in spaces, line breaks and commas before closing brackets only. (c) The texts: enum values show the name that the C header has for them, squares, pieces and packed moves show their number, hands their eight bytes, bitboards their two words; positions show all eight fields, including the cached ones. (d) Values of different types may print alike: GameResolution::BlackWins and PositionStatus::BlackWins.", "quantifier": "all values of the 21 types with Debug, games of any length", "why_tests_cant": "injectivity of a text format over all pairs of positions and all lists of moves", "anchors": ["every #[derive(.., Debug, ..)] in shogi_core/src", "shogi_core/README.md: Debug"]}
{"id": "C79", "title": "Bitboards as iterators", "statement": "(a) Whatever consumes a bitboard by calling next any number of times (adaptors, for loops left early, by_ref) finds what it would find going through the list of the members in ascending order, and the bitboard left behind has exactly the members not yet given out. (b) In particular nth, last, fold, collect, find, position, min and max are those of that list, Iterator::count equals the bitboard's own count, at most 82 calls of next are made, and after None comes None. (c) a.cmp(b) by value, which is Iterator::cmp, compares these lists; it says Equal exactly if a == b, but it is not the order of Ord: {1a, 1b} is less than {1b} as an iterator and greater for Ord.", "quantifier": "all bitboards, all consumers with any state and any results, panicking ones included", "why_tests_cant": "consumers are arbitrary programs; 2^81 bitboards", "anchors": ["shogi_core/src/bitboard.rs: Iterator for Bitboard, Bitboard::pop, Bitboard::count", "shogi_core/src/annotated_derive.rs: Ord"]}
{"id": "C80", "title": "The C test program, and positions compared by their texts in C", "statement": "(a) The repository's C test program passes on every target (either byte order, either alignment of 64-bit words), wherever its variables lie and whatever memory held before: both asserts hold, no step is undefined, nothing but its variables changes. (b) More generally, a C program that has two positions obtained through the API written to two buffers of 236 bytes and compares them with strcmp finds them equal exactly if board, hands, side to move and move number agree.", "quantifier": "all targets, all memories and addresses; all pairs of positions obtainable through the API", "why_tests_cant": "the test runs on one machine with one layout of its stack, and compares with one text", "anchors": ["c_tests/position.c: main", "shogi_core/src/position.rs: PartialPosition_startpos, PartialPosition_to_sfen_c, Position_to_sfen_c"]}
{"id": "C81", "title": "Games by the rules of shogi", "statement": "With the rules of shogi for single moves written down separately (moves of the pieces, promotion, drops, two pawns, stuck pieces, check, mate by a dropped pawn): every legal move is accepted by make_move in every position of every game played by the rules from the starting position, and leads where the rules say; in these games the observers never report two unpromoted pawns of a player on a file, a piece that can never move, a missing king or a wrong king_position. In any position make_move accepts, among moves the pieces can make, exactly those that do not capture a king. A LegalityChecker that follows the rules (and calls nothing legal while the player not to move is in check) satisfies its contract, and its checked make_move plays exactly the games by the rules.", "quantifier": "all games of any length; all positions obtainable through the API; all implementors of LegalityChecker", "why_tests_cant": "the crate has no rules to test against; games are unboundedly many", "anchors": ["shogi_core/src/position.rs: make_move, king_position, piece_at", "shogi_core/src/legality.rs: LegalityChecker (contract in the comment of is_legal), make_move"]}
{"id": "C82", "title": "Hash keys and scores kept up to date move by move", "statement": "An engine that adds up values for every piece on its square, every number in hand and the side to move, in any commutative group (scores under addition, Zobrist keys under exclusive or), may update its total by what it reads off the position before a move (moved piece, promoted piece, captured piece, number in hand): after any sequence of make_move calls, accepted or rejected, the total is the one computed afresh from the observers. Totals of positions equal for repetition agree, so transpositions get the same key; and positions that get the same total for every assignment of values are equal for repetition.", "quantifier": "all commutative groups and all values; all positions obtainable through the API; all sequences of moves", "why_tests_cant": "a value not removed or added in one case (promotion, capture of a promoted piece, wrapped count) shows up only for particular positions and values; the totals are claims about all of them", "anchors": ["shogi_core/README.md:73-78 (hash values for transposition tables are left to users)", "shogi_core/src/position.rs: make_move, piece_at, hand, side_to_move", "shogi_core/src/square.rs: all", "shogi_core/src/hand.rs: all_hand_pieces"]}
{"id": "C83", "title": "Generating moves with any LegalityChecker", "statement": "For every implementor of LegalityChecker that keeps the promises documented for is_legal_partial_lite, normal_from_candidates, normal_to_candidates, drop_candidates and all_legal_moves_partial: a client that loops over player_bitboard of the side to move and normal_from_candidates with both promotion choices, and over all_hand_pieces and drop_candidates, collects every legal move exactly once; so does a client that loops over all squares and normal_to_candidates; both are permutations of all_legal_moves_partial. There is no legal move exactly if all candidates are empty. Counting recursively with make_move (perft) counts every line of n legal moves once, and from the starting position with a checker for the rules of shogi, every game by the rules of n moves. Any predicate that only allows moves make_move accepts can be completed to such a checker by trying everything with Square::all, Piece::all and |=.", "quantifier": "all implementors of LegalityChecker meeting the documented promises; all positions obtainable through the API; all depths n", "why_tests_cant": "the crate contains no implementor; the statement is about all of them and all positions", "anchors": ["shogi_core/src/legality.rs:71-120", "shogi_core/src/bitboard.rs: Iterator, |= with a square, is_empty", "shogi_core/src/position.rs: player_bitboard, make_move", "shogi_core/src/hand.rs: all_hand_pieces"]}
{"id": "C84", "title": "Attacks and checks found with bitboards", "statement": "A client that shifts piece_bitboard sets with shift_left, shift_right, shift_up and shift_down (masking what shift_right leaves outside the board), stops sliding pieces with vacant_bitboard and unites the results with | finds, in every position obtainable through the API: exactly the squares pieces of a kind and colour reach, exactly the squares a player attacks, exactly the pieces that attack a square (going backwards from it as the other player's pieces move), and exactly whether a player is in check, all according to the rules of shogi. Turning the board with flip exchanges the two colours in this computation.", "quantifier": "all positions obtainable through the API, all squares, kinds of pieces and players; all canonical sets for the turned computation", "why_tests_cant": "positions and sets of squares are astronomically many; the claim relates the bitboard operations to the rules of movement on all of them", "anchors": ["shogi_core/src/bitboard.rs: shift_left, shift_right, shift_up, shift_down, flip, BitAnd, BitOr, Not, single, is_empty", "shogi_core/src/position.rs: piece_bitboard, vacant_bitboard, player_bitboard", "shogi_core/src/legality.rs:27-30"]}
{"id": "C85", "title": "A legality checker written with the crate follows the rules", "statement": "A LegalityChecker programmed with nothing but functions of the crate (bitboards, piece_at, hand, relative_rank, promote, get_file_unchecked, make_move on a copy) and the table of how pieces move decides, in every position obtainable through the API and for every Move: whether a piece can make the move; whether it also leaves the own king unattacked; whether the player to move is mated; and whether the move is legal, including the bans on stuck pieces, on two pawns on a file and on mate by a dropped pawn. The checker never panics, keeps the promises documented for the trait, and counting moves with it (perft) from the starting position counts exactly the games by the rules of shogi.", "quantifier": "all positions obtainable through the API, all moves, all depths n", "why_tests_cant": "known perft numbers check a few depths from a few positions; the claim is for all positions and depths", "anchors": ["shogi_core/src/legality.rs:27-131", "shogi_core/src/position.rs: make_move, piece_at, hand, piece_bitboard, player_bitboard, vacant_bitboard", "shogi_core/src/square.rs: relative_rank, file", "shogi_core/src/bitboard.rs: contains, get_file_unchecked, shifts", "shogi_core/src/piece_kind.rs: promote"]}
{"id": "C86", "title": "What is wrong with an illegal move", "statement": "A client that uses only functions of the crate can implement is_legal_partial and status_partial of LegalityChecker so that, in every position obtainable through the API and for every Move, exactly one of eight answers applies and is the one given: legal, or one of the seven IllegalMoveKinds as their comments describe them (game finished; a stuck piece, dropped or moved; two pawns on a file; check ignored; mate by a dropped pawn; otherwise an incorrect move). The status it gives to a position is Invalid iff the player not to move is in check, else a win of the opponent iff the player to move is mated, else InProgress. Nothing panics.", "quantifier": "all positions obtainable through the API, all moves", "why_tests_cant": "that the reasons exclude each other and that one of them always applies is a statement about all positions and moves", "anchors": ["shogi_core/src/illegal_move_kind.rs:10-37", "shogi_core/src/legality.rs:5-22", "shogi_core/src/legality.rs:27-131", "shogi_core/src/position.rs: make_move, piece_at, hand"]}
{"id": "C87", "title": "A complete legality checker, and games that end", "statement": "A client of the crate can implement every method of LegalityChecker, status of a Position included, by replaying the record with make_move and comparing SFEN keys of the earlier positions. For every Position obtained from the starting position by the two move functions, its status is Invalid iff the recorded moves are not those of a game by the rules in which nobody plays on after mate or a fourfold repetition; otherwise it is Draw iff the position has occurred three times before, a win iff the player to move is mated, and else InProgress. The Positions that can be built with the checked make_move are exactly those games; each call succeeds iff the move is legal and the game is not over, and otherwise returns the right IllegalMoveKind and changes nothing. No game with this checker has more than 3*256^96 moves, so none goes on for ever.", "quantifier": "all sequences of moves from the starting position, of any length", "why_tests_cant": "a test plays finitely many games; termination and exactness are statements about all of them", "anchors": ["shogi_core/src/legality.rs:27-131", "shogi_core/src/position.rs: Position, make_move, to_sfen_owned", "shogi_core/src/legality.rs:5-22", "shogi_core/src/illegal_move_kind.rs"]}
{"id": "C88", "title": "The game looks the same from every point of view", "statement": "Count the files from the other end (a mirror image), or the ranks (which exchanges the two players), or both (the board turned round). Every position can be looked at in each of these ways. make_move accepts a move iff it accepts the corresponding move in the corresponding position, and the results correspond again, hands and ply included. The squares attacked, check, the verdict of a client of the crate on every move with its reason, the status of the position, the number of games of n legal moves for every n, and the status of every recorded game (repetitions included) are the same, except that the name of the winner changes with the names of the players.", "quantifier": "all four points of view, all positions obtainable through the API, all moves, all recorded games of any length, all depths", "why_tests_cant": "a test compares single positions with their mirror images", "anchors": ["shogi_core/src/position.rs: make_move, piece_at, hand, side_to_move, to_sfen_owned", "shogi_core/src/bitboard.rs", "shogi_core/src/square.rs: Square::flip, file, rank", "shogi_core/src/legality.rs:27-131"]}
{"id": "C89", "title": "{:?} stays faithful under every option of the format string", "statement": "Whatever a format string asks for besides `?` (width, fill, alignment, sign, leading zeros, hexadecimal with small or capital letters, precision, `#`), the texts of two values are the same iff the values are equal, even if spaces, line breaks and padding are removed, provided that the fill character is not a letter, a digit or one of `_+()[]{},:` and the precision is not 0. The width applies to every number and bool inside, never to the whole or to names; names of variants ignore all options. The number inside is sign, `0x` under `#` with hexadecimal, and digits, padded to exactly the width.", "quantifier": "all combinations of options, all values of every exported type, valid or not, positions and games of any length", "why_tests_cant": "widths, fill characters and values are unbounded", "anchors": ["#[derive(Debug)]: shogi_core/src/position.rs:13,57,100,374", "shogi_core/src/square.rs:10,287", "shogi_core/src/piece.rs:19,30", "shogi_core/src/mv.rs:8,177,304", "shogi_core/src/hand.rs:11", "shogi_core/src/bitboard.rs:10,529"]}
{"id": "C90", "title": "Features only add, and every choice of features gives a complete library", "statement": "Cargo turns on exactly the features asked for, and alloc with std. Under any set of features every item of the crate mentions only items that are there; more features never take an item away or change it; an item needs `alloc` exactly if its definition comes down to the crate alloc, `experimental`, `ord`, `hash` exactly if documented so, and never `std`. An implementation of ToUsi survives any added feature; one of LegalityChecker survives a change of features exactly if `alloc` stays as it was. The C library links under all of its own features, and fails exactly if another package turns on alloc in shogi_core while it has neither alloc nor std. With fitting macros the header declares exactly the types and constants of the library; functions on Position and Game are declared always but exist only with alloc.", "quantifier": "all sets of requested features of both packages and of other packages, all items, all trait implementations, all macros", "why_tests_cant": "CI builds a few combinations of features; the rest is never compiled", "anchors": ["shogi_core/Cargo.toml:19-25", "shogi_core_c/Cargo.toml:14-26", "#[cfg(feature = ..)]: shogi_core/src/position.rs:11-54,98-366,817", "shogi_core/src/legality.rs:35-123", "shogi_core/src/annotated_derive.rs", "shogi_core_c/src/lib.rs:1-11", "shogi_core_c/src/no_std.rs:52,60", "include/shogi_core.h:28,284,298,373"]}
{"id": "C91", "title": "The build script writes complete files of correct constants, or says that it failed", "statement": "If the build script reports success, piece_consts.rs and square_consts.rs in OUT_DIR hold two fixed texts, whatever was there before and however the system split or interrupted the writes; no other file has changed, and cargo is told to run the script again if it changes. Read as Rust, the texts declare one constant for each of the 28 pieces and 81 squares, once in the type and once documented in a module, with distinct names, and each constant is the piece or square its name says. If the script fails, it reports so and each file is untouched or a beginning of its text, the second only after the first is complete. The files are the ones lib.rs includes for every nonempty OUT_DIR.", "quantifier": "all OUT_DIR, all previous contents, all splits, interruptions and failures of writes", "why_tests_cant": "a test sees one build on one machine, on which no write fails or is split", "anchors": ["shogi_core/build.rs:6-123 generate_piece_consts, generate_square_consts, main", "shogi_core/src/lib.rs:96-97 include!"]}
{"id": "C92", "title": "Boxed positions keep their contents, byte by byte, whatever other threads do", "statement": "Whenever no function is running on a live handle of the C interface, the bytes in the arena at that handle, and those of the buffer they point to, stand for the starting position followed by exactly the moves accepted through the handle, and for nothing else. This holds however the byte stores of functions on different handles, of other users of the allocator and of the allocator itself are interleaved. Every store of a function lies within the arena, in a block that the allocator returned for this very position, and never touches a byte of another position, of its buffer or of anything else. The pointers given by Position_inner and Position_initial_position can be passed to the functions for PartialPosition, which then see the position after all accepted moves and the starting position, as long as the arena is aligned. Conversely everything possible with positions as values is possible with bytes.", "quantifier": "all compilers (layouts, representations, growth of buffers), all interleavings of any number of threads, all games, all pointer widths", "why_tests_cant": "a test runs one compiler and a few interleavings, and a stray store shows only if somebody looks at the byte it hit", "anchors": ["shogi_core/src/position.rs:101-141 Position, Position_inner, Position_initial_position, Position_startpos, Position_destruct", "shogi_core/src/position.rs:315-335 make_move, Position_make_compact_move", "shogi_core_c/src/no_std.rs:4-10, 68-112 memcpy, SimpleAllocator"]}
{"id": "C93", "title": "What every C function does with any value a C program can pass", "statement": "In the header squares, players, kinds, pieces, moves and outcomes are plain integers, so a C program can pass any value. For each of the 57 functions with such an argument (all functions of the header with an argument by value except the two that make a move, plus Bitboard_pop) and for all arguments: the call returns exactly if the arguments are in a stated range, its answer is then a stated arithmetic function of the arguments, and outside the range the call is undefined behaviour, or a panic in a debug build, never a quiet answer. The ranges are 1-81 for squares, 1-14 for kinds, 1-2 for players, 1-5 and 1-7 for outcomes, any two words for bitboards except in pop. For pieces the range is wider than documented: every byte with low four bits 1-14 counts, and all from 16 on as White's.", "quantifier": "all functions, all values of all arguments, all positions, hands and bitboards, all builds", "why_tests_cant": "2^16 moves, 2^128 bitboards and undefined behaviour which a test need not notice", "anchors": ["include/shogi_core.h:481-1085 the prototypes", "shogi_core/src/square.rs:19-212 Square", "shogi_core/src/piece.rs:48-115 Piece", "shogi_core/src/mv.rs:223-284 CompactMove", "shogi_core/src/bitboard.rs:48-520 Bitboard", "shogi_core/src/hand.rs:106-163 Hand"]}
{"id": "C94", "title": "What making a move does with any word a C program can pass", "statement": "A CompactMove is a plain uint16_t for a C program. For every word and position: if the word is not loosely a move (target square in bits 0-6; a byte with low four bits 1-14 above bit 8 if bit 7 is set, otherwise a source square) PartialPosition_make_compact_move and Position_make_compact_move are undefined behaviour. If it is, and the board bytes are harmless, the call returns; a refused word changes nothing; Position records a move exactly if it is made. A loose word does the same as the documented word it stands for: same answer, same side, move number, hands, bitboards and king squares, the same text, and board bytes and last move that differ only by being loose codes of the same piece. This holds for any series of words.", "quantifier": "all 65536 words, all positions (series: all lists of loose words on all positions of the API), all builds", "why_tests_cant": "Tests pass documented codes only. What a stray code left on the board by one call does to later calls depends on every function that reads the board.", "anchors": ["shogi_core/src/position.rs:689-765 PartialPosition make_move", "shogi_core/src/position.rs:327-332 Position_make_compact_move", "shogi_core/src/mv.rs:193-210 CompactMove to Move", "shogi_core/src/piece.rs:54-66 to_parts"]}
{"id": "C95", "title": "No function of the C library panics in a release build, whatever it is given", "statement": "For each of the 84 functions of the header, whatever numbers are passed by value and whatever bytes the structs behind its pointers hold (the player to move being one of the two), a release build does not panic (memory allocation aside): the call returns or is undefined behaviour. In any build, a panic means that arithmetic is checked and either a square number above 81 was passed or Bitboard_pop was called on a bitboard whose first set bit is bit 63 of the first word. Making a move never panics in any build, with any word and any contents of the position. Writing the text of a position never panics either, into memory at any address or into any sink that does not panic itself.", "quantifier": "all functions of the header, all argument values, all contents of the structs, all memories and addresses, all builds", "why_tests_cant": "The project checks the symbols of one compiled library for bounds checks, which says nothing about other compilers or other panics. Tests cannot run through all contents of a position (over 300 bytes).", "anchors": ["shogi_core/README.md:30-31 no panics", ".github/workflows/c-bindings.yml:40-46 panic_bounds_check", "include/shogi_core.h:481-1085", "shogi_core/src/position.rs:689-765 PartialPosition make_move", "shogi_core/src/position.rs:768-836 to_sfen", "Cargo.toml:7-18 profiles"]}
{"id": "C96", "title": "Debug and release builds, 32-bit and 64-bit, do the same", "statement": "For each of the 84 functions of the header, whatever numbers are passed and whatever the structs hold, any two builds (with or without checked arithmetic and debug assertions, 32-bit or 64-bit) do the same, undefined behaviour included, unless a square number above 81 is passed or Bitboard_pop meets the stray bit 63. Without exception, an answer given by any build is given by every release build. Series of moves with any words on any position give the same position byte by byte; positions are written with the same text in the same pieces into every sink and with the same bytes into memory; and the positions a program can reach with the safe API are the same in all builds.", "quantifier": "all pairs of builds, all functions of the header, all argument values, all contents of the structs, all series of words, all sinks and memories", "why_tests_cant": "A test runs in one build. Which wrapping operations and usize conversions are harmless depends on the range of every intermediate value.", "anchors": ["Cargo.toml:7-18 profiles", "shogi_core/src/hand.rs:64-101 wrapping_add", "shogi_core/src/position.rs:689-765 make_move", "shogi_core/src/position.rs:768-836 to_sfen", "shogi_core/src/square.rs:254-260 sanity_check", "shogi_core/src/bitboard.rs:150-177 pop"]}

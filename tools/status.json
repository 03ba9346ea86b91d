{
 "C08": {
  "status": "partial",
  "note": "No UB from five characters on, exact acceptance condition and behaviour of short descriptions are proved; C08_exact and C08_data give the syllable and the alternatives of every accepted description by tables separate from the model. The clause that every accepted syllable is printable is false: C08_printable_false (cluster and vowel codes are not checked); C08_printable_exact says exactly which ones are."
 },
 "C11": {
  "status": "partial",
  "note": "Contents up to == are proved. Uniqueness is false when equal strings differ in end positions (C11_unique_false); C11_unique_partial covers strings whose equality implies equal end positions. C11_strict and C11_nodup hold always: the alternatives increase strictly under <, so none occurs twice with the same end positions; C11_order_false shows that which of the == strings stay depends on the order of adding."
 },
 "C18": {
  "status": "partial",
  "note": "Termination on every DAG and uniqueness of fractions between two nodes are proved in full. Normal return is proved for acyclic DAGs; for self-loop-free DAGs with cycles it is false (C18_loop_false). C18_ring, C18_returns_endless: on cyclic graphs a ring (nodes with one edge in and one out, closed) always gives undefined behaviour, and without a cut-off part without beginning and end there is none; C18_exact: a ring is the exact condition if the syllables tell the edges of a node apart; C18_between: not otherwise."
 },
 "C19": {
  "status": "partial",
  "note": "C19_false: merged parallel fractions have end position -1. C19_endPos_partial: fractions with exactly one alternative have the right end position, all others -1."
 },
 "C21": {
  "status": "partial",
  "note": "Proved exactly: a non-empty list of non-empty pronunciations is read back iff no syllable text needs a JSON escape (C21_exact), and for a parsed word with a pronunciation, in every notation, iff the word has no quotation mark, backslash or control character (C21_word). So the property is false in general: literals are printed without escaping (C21_quote_false, C21_injection_false)."
 },
 "C22": {
  "status": "partial",
  "note": "Proved exactly: a lattice is read back iff no syllable text needs a JSON escape (C22_exact), the empty one included, and for a parsed word with a pronunciation iff the word has no quotation mark, backslash or control character (C22_word). So the property is false in general (C22_quote_false)."
 },
 "C23": {
  "status": "partial",
  "note": "False for JsonOutput, which dereferences begin() of an empty list (C23_json_false). The other formats are proved defined."
 },
 "C27": {
  "status": "partial",
  "note": "Syllable text, capitalization and lines are proved in full. The hyphen rule is false after a blank (C27_hyphen_false) and after a leading blank (C27_leading_false); C27_hyphen_partial covers pronunciations without blanks, C27_exact says what is printed in general."
 },
 "C32": {
  "status": "partial",
  "note": "False: a malformed line ends reading and the rest is lost with success reported (C32_false), an overlong line is cut (C32_long_false). C32_partial: holds for files of well-formed lines; C32_defined: the generator always ends and is defined on files without NUL. C32_exact says for every file without NUL what is entered (the lines before the first malformed one, in a cut that is proved unique) and when the generator fails; C32_whole: nothing is lost exactly if every line is an entry with a Thai word. C32_any says the same for every file of bytes, with NUL: of a line the part before the NUL counts, and a line that begins with one is undefined behaviour when it is reached."
 },
 "C35": {
  "status": "partial",
  "note": "False for a dictionary without entries (C35_false); proved for all others (C35_partial)."
 },
 "C33": {
  "status": "partial",
  "note": "C33_false: if the trie loads but the data bank does not, a later match is UB. C33_partial: with the file missing or without a readable trie, the load reports failure and parsing equals parsing without dictionary. C33_nomatch: even with a trie left over, a text without any of its words is parsed as without dictionary. C33_exact: with a trie left over the parser is undefined exactly if some partial reading meets one of its words, and works as without dictionary otherwise."
 },
 "C37": {
  "status": "partial",
  "note": "C37_false: words ending in a leading vowel other than sara e throw out_of_range. C37_exact characterises exactly when that happens; C37_partial: every other word is parsed without exception; C37_encoding: malformed UTF-8 throws. C37_ok says for every dictionary, readable or not, exactly which texts are parsed."
 },
 "C40": {
  "status": "partial",
  "note": "C40_false: a period directly after a run of other characters is swallowed by the literal. C40_partial states the literals for all words including that case; C40_plain is the clean form when no such period occurs."
 },
 "C41": {
  "status": "partial",
  "note": "False in two cases: a leading vowel right before a break takes the consonant behind it (C41_false), and a period right after a break is added to the syllable before it (C41_dot_false). C41_partial covers everything else; C41_clean gives the unconditional statement for texts without these cases."
 },
 "C45": {
  "status": "partial",
  "note": "Losslessness, soundness and the minimum-first order of the pool are proved for all histories. The one-state-per-position-and-flag clause is false (C45_false); C45_partial is what holds. C45_exact says what is in the pool after any sequence of operations: sorted by position, and at each position a stack of flags on which a flag is laid only if it differs from the top; C45_unique: one state per flag exactly if there are at most two states for the position; C45_add: where the edges go."
 },
 "C54": {
  "status": "partial",
  "note": "False: alternatives that meet at a common node are recombined (C54_false, on the word ราคลา; C54_false_pre, on บริกา). C54_exact says which pronunciations are listed for every text: the ways along syllables of readings, each once. C54_unmixed: for texts without the possible causes of mixing (periods, dictionary words of several syllables, บริ, จระ, and linking syllables before something that needs an unlinked start) the listed pronunciations are exactly the readings; C54_sparse gives a condition on the characters alone. C54_partial: a word with a single reading has exactly that pronunciation listed. unmixed_iff and C54_each: none of the five conditions of C54_unmixed can be left out."
 },
 "C51": {
  "status": "partial",
  "note": "False: --help is only recognised as first argument (C51_false), and the comparison reads beyond a first argument of less than two bytes (C51_ub_false). C51_partial: -h, -V, --version anywhere, --help in the first place; C51_ub: exactly when option processing is undefined."
 },
 "C55": {
  "status": "partial",
  "note": "False: plain JSON on an empty line or a word without reading is undefined behaviour (C55_json_false, C55_noreading_false); a word ending in a leading vowel ends by an uncaught exception (C55_throw_false). C55_exact says exactly when the program ends normally."
 },
 "C56": {
  "status": "partial",
  "note": "False: seven kinds of syllables are not read back (C56_false). C56_partial proves it for every syllable whose respelling follows the spelling rules (Respellable); C56_exact proves that exactly these are read back."
 },
 "C57": {
  "status": "partial",
  "note": "False: a word of 3n+1 letters takes more than 2^n turns (C57_exp, C57_false). C57_partial proves a linear bound, for every dictionary and all breaks, for words without a consonant that two syllables can share. C57_upper: every word, with any dictionary and any breaks, is done within 2 * 36^n + 1 turns."
 },
 "C59": {
  "status": "partial",
  "note": "False: a refused source leaves the output empty (C59_false), equal paths destroy the source with status 0 (C59_same_false), write errors are not noticed (C59_disk_false). C59_partial and C59_pipeline cover different paths and room on the disk; C59_others all runs."
 },
 "C60": {
  "status": "partial",
  "note": "False: a negative size field ends the program by an exception (C60_size_false), a trie without data leads to undefined behaviour (C60_cut_false). C60_partial and C60_messages cover files that do not begin with a trie. C60_exact covers tries without data: exactly the runs in which a partial reading meets a word of the trie go wrong. C74_run covers files of any contents that are read without an exception and whose stored texts are good."
 },
 "C61": {
  "status": "partial",
  "note": "False: copying a Dict frees twice (C61_copy_false), an open that throws leaves the file open (C61_leak_false). C61_partial and C61_parser: without copies nothing else goes wrong, for all sequences."
 },
 "C63": {
  "status": "partial",
  "note": "False: an abbreviation right after a character other than a space makes the whole unreadable (C63_false: กา(ก.). C63_partial and C63_printed: in all other cases, and after a space always. C63_readings and C63_listed: for cuts at word breaks too."
 },
 "C64": {
  "status": "partial",
  "note": "False: a dictionary entry ending at @2147483647 overflows when its word is not at the beginning of the text (C64_false_entry), and ตลาด after 21474837 or more spaces overflows (C64_false_long). C64_partial: with dictionaries whose readings lead forward and texts of up to 2^31/101 units no int overflows. Exactly (C64_exact, C64_ok, C64_same): for texts of any length and any dictionary, an int overflows if and only if some partial reading meets a dictionary reading whose moved end is no int, or a syllable with pre-syllable at which 100*begin+end is no int; otherwise 32-bit arithmetic gives the same outcome."
 },
 "C65": {
  "status": "partial",
  "note": "False: หอก is listed twice as ha-ok, once with a pre-syllable and once with a syllable (C65_false). C65_partial: pronunciations listed twice always end a syllable at different positions. C65_raw: no line of the raw notation, which shows these positions, is repeated."
 },
 "C66": {
  "status": "partial",
  "note": "False: เทยก is read เท-ยก only with a break after เท (C66_false), since without it the rules know only เทย there. C66_readings and C66_partial: true for breaks that cut no dictionary word, no abbreviation and none of the spellings that depend on what follows (SoftBreak), with any dictionary. C66_each: none of the sixteen conditions of SoftBreak (softBreak_iff) can be left out; for each there is a break that meets the other fifteen and adds a reading."
 },
 "C67": {
  "status": "partial",
  "note": "False: the dots below are read as other text (C67_dots_false), and the rules read syllables that Thai cannot spell, e.g. เกยา as เก(long e)ย-ยา (C67_false). C67_exact, C67_word: without the dots, the line is read back if and only if every syllable is Respellable; by a parser without dictionary and word breaking."
 },
 "C68": {
  "status": "proved",
  "note": "C68_exact: which written syllables can be respelled; C68_regular: ordinary texts have no others; C68_word, C68_shipped: their Thai lines are read back; C68_needed: a word for each excluded spelling. One shipped dictionary reading cannot be written: สรเพชญ (C68_data_false), all others can (C68_data)."
 },
 "C69": {
  "status": "proved",
  "note": "C69_paced, C69_count: for dictionaries whose readings are paced, among them none and the shipped one (C69_data); C69_twice: for all that lead forward; C69_needed: the condition on the dictionary is needed."
 },
 "C70": {
  "status": "proved",
  "note": "C70_rebuild: the DAG built from a listing; C70_entry: for any dictionary with the entry; C70_file: for a generated dictionary file to which the line is added."
 },
 "C71": {
  "status": "partial",
  "note": "C71_delim: raw, Soundex and Thai lines with blanks, without literal text; C71_raw: raw lines determine the pronunciation. False for literal text (C71_literal_false), for phonetic lines with blanks (C71_phonetic_false; C71_phonetic_partial without blanks) and for Roman lines (C71_roman_false); C71_roman_partial holds without neighbours of the kinds in Blurred, and C71_roman_each shows that each such pair has a second reading."
 },
 "C72": {
  "status": "partial",
  "note": "False: the notations leave differences out (C72_thai_false, C72_roman_false). C72_thai and C72_roman say exactly, for all pairs of valid syllables, when the texts are the same (asWritten and asRomanized pick one syllable of each class, C72_thai_same, C72_roman_same). C72_thai_partial: syllables that can be respelled have different Thai texts; C72_line: their lines determine the pronunciation; C72_word: so it is for the pronunciations listed for ordinary words. C72_roman_line: Roman lines up to asRomanized, without the neighbours in Blurred. For the Soundex and phonetic texts see C25_iff and C26_iff."
 },
 "C74": {
  "status": "partial",
  "note": "False: the number of a word is an unchecked offset into the data (C74_false), and text that is too short for a syllable is read beyond its end (C74_short_false). C74_exact says, for every trie and every data, when a text is parsed; C74_ub: a word met whose number leads out of the data is undefined behaviour if the other words met can be read; C74_unmet: words not met do not count; C74_partial: a file without such words is the map of what it stores, so that all other properties apply to it. C74_run says the same for whole runs."
 },
 "C76": {
  "status": "partial",
  "note": "False: C76_exp gives texts of 5n+4 characters with exactly 2^(n+1) pronunciations, all printed differently, so no polynomial bounds them (C76_false). C76_partial: at most 2 to the number of edges, which C75 bounds. C76_upper: at most (146 + n*B)^(2n) for n characters and dictionary words of at most B syllables; C76_paced: (291 + 2nB)^n if every syllable of the dictionary begins a character of its own (C69_data: the shipped one); C76_base: 291^n without dictionary."
 },
 "C77": {
  "status": "partial",
  "note": "False: data after a NUL are dropped without a word (C77_false), a line of more than 255 bytes is taken for two entries (C77_long_false); status 0 alone does not even mean that the whole file has been read (C77_status_false). C77_exact says what is done and printed for every source, undefined behaviour included, C77_silent when nothing is printed; C77_partial: true for lines without NUL of at most 254 bytes and a disk with room. C77_usage, C77_input, C77_output: the other messages."
 },
 "C79": {
  "status": "partial",
  "note": "False: two pronunciations that meet at a position are taken for four (C79_false); one that ends where another goes on is lost (C79_lost_false). C79_exact says what is denoted for every list with ordered positions; C79_partial: at least all members, if they end at the same position; C79_listing: exactly the list, for the pronunciations listed for a word."
 },
 "C80": {
  "status": "partial",
  "note": "False: a merged fraction keeps the end position of its first part (C80_false). C80_exact says what mergeSingles does to every chain; C80_partial: fractions with several alternatives, and chains in which nothing is merged, are all right."
 },
 "C82": {
  "status": "partial",
  "note": "False: เกรต์ is read in three ways, เกรร์ in one; เกต์ง is read, เกอ์ง is not (C82_false). C82_readings_partial, C82_partial: true for all letters that can be final consonants, other than ร; the four others (ร ห อ ฮ) are counterexamples each (C82_each)."
 },
 "C83": {
  "status": "partial",
  "note": "False: แ alone aborts, and so does แกว่ง with a break after แ, which the program without assertions parses (C83_false). C83_exact: it aborts exactly when a reading comes to a leading vowel other than เ that ends its token; C83_same: where it does not abort, nothing differs, for all breaks and dictionaries; C83_partial: so if no such vowel ends its token; C83_thai: the assertions of the Thai output always hold."
 },
 "C84": {
  "status": "partial",
  "note": "False: a two-cycle is merged to a loop, and the merging of a loop uses the element just erased (C84_false). C84_exact: grouping ends as on lists, for every DAG; C84_partial and C84_word: no invalid iterator for acyclic DAGs, so for every word; C84_ring, C84_endless: the exact condition on cyclic DAGs, as in C18. C84_dag, C84_alts, C84_chain, C84_pool, C84_dot: the other loops, without exception."
 },
 "C85": {
  "status": "proved",
  "note": "C85_sign, C85_pair, C85_last for all dictionaries and breaks (characters of dictionary words excepted); C85_exact: the table is exact without dictionary; C85_shipped, C85_data: with the shipped dictionary only ก็ is an exception; C85_order: a mark before a vowel sign."
 },
 "C86": {
  "status": "proved",
  "note": "C86_written, C86_order, C86_count: for dictionaries whose readings are written in their words; C86_plain: without dictionary; C86_data, C86_shipped: with the shipped one, up to ทร as ซ and ฑ as ด, which both occur (C86_irregular)."
 },
 "C87": {
  "status": "proved",
  "note": "Every consonant letter of a word is heard in the syllable it stands in or silent by one of the listed rules; with the shipped dictionary and every dictionary with the same property."
 },
 "C88": {
  "status": "proved",
  "note": "C88_voiced: vowel and tone of every syllable are spelled by the signs and letters of its part; C88_heard, C88_marks: no vowel sign and no tone mark is lost; C88_data, C88_shipped: with the shipped dictionary. Syllables of dictionary words are exempt."
 },
 "C89": {
  "status": "partial",
  "note": "False: ตรา is read in three ways, ฏรา in two (C89_false). C89_readings_partial, C89_partial: true unless an exchanged letter is one of those named by a rule for its neighbours (fourteen places); every entry of this table is needed (C89_each)."
 },
 "C90": {
  "status": "proved",
  "note": "C90_run: every run that comes to its words, in terms of the rules of reading; C90_usual: words on the command line, shipped dictionary, no options. The word breaker is any function with breaks in the text, the dictionary any with well-formed data."
 },
 "C91": {
  "status": "partial",
  "note": "False: ไทย is read in two ways, ใทย in one (C91_false). C91_more: every pronunciation with ใ is one with ไ. C91_readings_partial, C91_partial: the same pronunciations unless ย stands two to four characters after an exchanged sign; each of these distances is needed (C91_each)."
 },
 "C92": {
  "status": "proved",
  "note": "C92: both fail alike or both are parsed, with the same pronunciations; C92_readings: the same readings by the rules. C92_only: elsewhere the two signs differ (กา, กๅ). Assumed of the character classes: both signs are vowels."
 },
 "C93": {
  "status": "proved",
  "note": "C93: for every parsed word; C93_graph: for every acyclic graph with no edge into node 0 whose labels end where their edges end. C93_code: the readings of the grouped form are pairwise different members of the list, end positions included. C93_ends_needed: without matching end positions a reading may be denoted twice. Size is counted in lines and syllables, not in characters: the brackets of the grouped text are not counted. C93_lines: readings of different lines even have different sequences of end positions."
 },
 "C94": {
  "status": "proved",
  "note": "C94_known, C94_argument, C94_long, C94_sections. Long names are taken alone on the command line: elsewhere --help is not known (C51). The describing words of the help text are not interpreted."
 },
 "C95": {
  "status": "partial",
  "note": "False: C95_exp gives texts of 5n+4 characters (ฤกอก ฤกอก …) whose grouped form has at least 3^(n+1) lines, so no polynomial bounds them (C95_false). C95_partial: at most (146 + n*B)^(2n) lines for n characters and dictionary words of at most B syllables. C95_upper: at most 4^n lines, whatever the dictionary, if its entries use pre-syllable nodes as the program does (C44_shipped: the shipped one does)."
 },
 "C96": {
  "status": "proved",
  "note": "C96: both fail alike or both are parsed, with the same pronunciations up to the literal text; C96_readings: the readings of the one are those of the other with the text exchanged; C96_foreign: every character outside the Thai block but period and space may be exchanged. C96_space: a space may not (กา ก. and กา(ก.). Assumed: same word breaks."
 },
 "C97": {
  "status": "partial",
  "note": "False: an entry whose word has ฯ, ๆ, a digit or another sign that the tokenizer does not count as text is stored but never found (C97_false: ฯลฯ; C97_dead: it changes nothing, for any text; C97_signs: these characters), and a shorter word that begins it is read as well (C97_short_false). In the shipped data สิริกิติ์ has a second, unintended pronunciation, by สิริ (C97_shipped_false); all 104 others are read exactly as their entries say (C97_shipped). C97_partial: for Thai words without such a shorter word, the pronunciations of the entry are listed and nothing but what results from crossing over between them; C97_one: with one pronunciation, exactly this."
 },
 "C98": {
  "status": "proved",
  "note": "C98: for every N ≥ 12 and every dictionary whose readings have syllables of at most N letters; C98_data: the shipped dictionary with N = 12; C98_tight: twelve is attained by words of 12k letters for every k; C98_needed: without the condition on the dictionary it fails."
 },
 "C99": {
  "status": "proved",
  "note": "C99_readings: the partial readings, for all texts; C99: the exchange in the listing, for words whose readings do not mix (the condition of C54_unmixed); C99_data: the shipped dictionary's words have at most 11 characters; C99_tight: three characters are not enough. C99_needed: nor are four with a longer dictionary word."
 }
}
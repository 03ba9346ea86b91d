# thpronun: formal model and proofs

The code under study is `tlwg/thpronun` (read as text in `/repo`, never built or run).
The model is Lean 4 (`/verif/lean`), properties are listed in `properties.jsonl`,
the status of each in `MANIFEST.json`.

## Layout

* `lean/Verif/Model/*`  – executable model, function by function; every definition cites file:lines.
* `lean/Verif/Spec/*`   – small specifications the theorems are stated against (independent of the model's helpers).
* `lean/Verif/Lemmas/*` – helper lemmas.
* `lean/Verif/Props/*`  – the property theorems (`C01_…`), each with a non-vacuity `example`,
  and `#print axioms`-style checks in `Verif/Axioms.lean`.
* `tools/manifest.py` writes `MANIFEST.json` and `Verif/Axioms.lean` from the theorem names; `tools/status.json` has the
  notes. `tools/shipped.py` turns `/repo/data/*.tsv` into `Model/ShippedData.lean`.
* `seeded/LOG.jsonl` – one line per deliberately wrong model tried.
* `lean/Verif/RepoTests.lean` – the expectations of the project's own tests, evaluated on the model (see "Trusted base").

| code in /repo | model | specification | properties |
|---|---|---|---|
| thortho/thcons, thuni | ThCons | Tone | C01, C02 |
| sylstring/syl, sylcomp, sylstring | Syl, SylString | Syl, Desc | C03–C09, C78 |
| lattice/lattice | Lattice | Lattice, Chain | C10–C12, C80 |
| lattice/dag, pron-dag | Dag, PronDag, Iter | Dag, Order, Iter, Compact | C13–C19, C62, C84, C93, C95 |
| output/* | Output, SylOut | Output, Letters, Respell, Split, Alike, Woven | C20–C28, C56, C71, C72, C79 |
| dict/* | Dict, GenDict, GenText, GenMain, Resource | Dict, Resource, GenFile, AnyDict, Used | C29–C35, C59–C61, C74, C77, C97 |
| parser/parser.cxx | Parser, ParserInt, ParserAssert | Parser, Reading, Grammar, Simple, Concat, Listed, Breaks, Again, Ordinary, Count, Int, Overflow, PoolShape, Retone, Mute, Assert, Adjacent, Heard, Voiced, SameSound, AiVowel, RuLong, Opaque, Wide, SoftEach, Near, ListedEach | C36–C47, C49, C54, C57, C63–C70, C81–C83, C85–C89, C91, C92, C96, C98, C99 |
| data/*.tsv | ShippedData | – | C48 |
| thpronun/thpronun.cxx | Cli, Streams | Cli, Streams, Help | C50–C52, C55, C58, C90, C94 |
| codecvt | Utf | – | C53 |

`Spec/Grammar` is a declarative grammar of written syllables (onsets, rimes, tone marks, silenced letters) that does not
follow the parser's control flow; `C49_grammar` says that the parser's syllable rules accept exactly it, and `C49_open`,
`C49_closed` reduce it to the vowel patterns of a primer (`Spec/Simple`). `Spec/Respell` is the inverse direction,
from a syllable to letters; `Spec/Ordinary` says which written syllables have none, and which texts contain no such syllable.

## Trusted base

* The Lean 4.33 kernel. No own axioms, no `sorry`, no `native_decide`/`bv_decide`.
  Only `propext`, `Classical.choice`, `Quot.sound` may appear (`Verif/Axioms.lean` prints them for every property theorem).
* The hand translation C++ -> Lean. The code is not run, so the tie is the citation beside each definition. As a check,
  `tools/repotests.py` extracts the expected results from the project's tests (output, lattice, DAG, dictionary and the
  command-line scripts with the shipped dictionary) and `Verif/RepoTests.lean` evaluates the model on them: all 220 agree.
  (These are tests of the translation; no theorem uses them. parser/tests only prints and has no expectations.)
* Standard library behaviour as written in the model: `std::multimap` (stable insertion at the upper bound),
  `std::list`, `std::string`, `unordered_map::at` (throws `out_of_range`), `stoi`, `to_string`, `fgets`, `strtol` rules.
* libthai's character classification (`th_wcisthcons` …) is a *parameter* `CType` of the parser model with an
  explicit assumption `CType.Ok` (consonants lie in U+0E01..U+0E2E and are not RU/LU, tone marks are U+0E48..4B,
  upper/lower vowels are MAI HAN AKAT or U+0E34..39, leading vowels are U+0E40..44). A concrete instance satisfying it is given.
* libthai's word breaker is a parameter: an arbitrary list of break positions.
* libdatrie is modelled as a finite map from words to data indices; a state is the walked prefix.
* `wstring_convert` is modelled as strict UTF-8/UTF-16 transcoding.

### Not modelled / simplifications

* `int` is unbounded `Int`/`Nat`, except in `stoi` range checks, the 32-bit dictionary field, and `Model/ParserInt`, where
  the position arithmetic of the parser is 32-bit and overflow is `ub`; C64 shows where the two agree.
* Memory allocation never fails. Containers are lists; reading a string beyond its terminating NUL or indexing a table out of
  range is the distinct outcome `Res.ub`. `Model/Iter` has containers whose elements have identities and whose iterators become
  invalid; the loops that insert or erase while they iterate are repeated there, and C84 shows that they agree with the lists.
* `assert`s are ignored, as with `NDEBUG` (the default of configure); where the unchecked access is undefined the model says
  `ub`. `Model/ParserAssert` is the program built with assertions, a failed one being the outcome `abort`; C83 compares the two.
* libdatrie keys end at U+0000, so the texts given to the parser are assumed to contain no U+0000 when a dictionary is
  loaded; the trie has no size limit.
* Dictionary data banks are smaller than 2^31 bytes; the other parser theorems speak about the code for words of up to
  2^31/101 UTF-16 units, so that the encoded pre-syllable positions fit into `int` (C64).
* `Cli.main` returns the text of a whole run; `Cli.mainS` adds what is on the streams before an exception ends the
  program (C58). Nothing is claimed about the streams after UB. Stream failures are not modelled, except that the files
  written by gen-lookup-dict may be cut (C59).
* In the model of gen-lookup-dict different paths are different files, and `trie_fread` is trusted to undo `trie_fwrite`
  (hypothesis `ReadsBack` of `C59_pipeline`).
* The lines of /repo that no comment cites are constructors, assignments and accessors that copy or forward every member
  (parser.cxx 75-108, 140-148, 195-236; dag.inl 23-40, 86-148; lattice.inl; syl.inl 33-41, 58-116; sylstring.inl 23-34, 58-80),
  declarations, and the destructor of `Match`. They were read; each is the record, list or field operation of Lean used for it.
  No operation is given an operand that is part of its own target (`s += s`, `s = *s.begin()` are undefined in C++ and do not
  occur in the program; lists are values in the model).
* Comparison of floating-point or locale facets does not occur. Destructors and moves have no observable effect.
* stdin/stdout are lists of bytes; locale-dependent behaviour is taken in the "C" locale.

## Outcomes

`Res α = ok a | throw e | ub | diverge`. C++ exceptions, undefined behaviour and running out of fuel are
all distinguished from normal results, and no theorem treats one as another.

## Plan per property

| id | modelled | proof |
|----|----------|-------|
| C01 | ToneFromWritten | comparison with an independent rule table, exhaustive over the finite enums |
| C02 | three 46-entry tables + mid-consonant set | whole-table kernel decision, lifted to all characters |
| C03,C04,C05 | Syl/SylString comparison operators | equivalence with a lexicographic key order; order laws |
| C06,C07 | Syl(desc), SylString(desc), MakeSylStrings, Raw output, stoi/to_string | table inverses; decimal round trip by induction; split/join by induction |
| C08 | Syl(desc) with UB for short strings | the notation of data in Spec/Desc, exact by case analysis; "accepted => printable" is FALSE (unchecked cluster and vowel codes): negation + exact condition |
| C09,C44 | shiftEndPos, AddSyl encoding | integer arithmetic |
| C10,C11 | PronunFrac += | induction over histories; uniqueness is FALSE in general (== ignores endPos, < does not): negation + partial (set preserved; unique when end positions agree) |
| C12 | mergeSingles on chains/lattices | induction on the chain |
| C13,C14 | multimap-backed DAG | invariant + refinement to an edge set, induction over operation lists |
| C15 | DAGSylStrings | equality with maximal-path enumeration, by well-founded rank induction |
| C16 | PronunDAG(list), addSylString | edge-set characterisation |
| C17,C18,C19 | fracDAG, mergeSingles, mergeParallels, lattice | language-preservation of one rewrite, termination measure = number of edges; C19 is FALSE after mergeParallels: negation + partial; on cyclic graphs (Props/Ring) one step of merging keeps rings, and if the first syllable decides the target it makes none |
| C20 | DelimOutput | induction |
| C21,C22 | Json, grouped Json | an independent JSON reader (with all escapes, `\u` included); FALSE with special characters (no escaping) and for the empty list: negation + partial; exactly when it holds, for lists, lattices and parsed words (`C21_word`: iff the word has no quotation mark, backslash or control character) |
| C23 | all outputs on the empty DAG | JSON is UB: negation + partial |
| C24..C28 | five notations | whole-table decisions lifted to all syllables; hyphenation after a blank in C27 is FALSE: negation + partial |
| C29,C30,C34,C35 | gen-lookup-dict | arithmetic / induction over histories; C35 FALSE for the empty input: negation + partial |
| C31 | Match over a finite-map trie | induction on the text |
| C32 | ReadInput/GenDict | FALSE (first malformed line truncates silently): negation + partial; exact contents for every file without NUL (`C32_exact`, `C32_whole`) |
| C33 | Dict::open + FindExceptions | FALSE (trie kept, data null => UB): negation + exact condition (`C33_exact`), by the loop invariant and the order of the pool |
| C36..C43,C45..C47,C49 | the parser, with CType and breaks as parameters | every grammar rule emits only valid, strictly forward syllables; worklist invariants; exact characterisation of the final edge set by complete derivations; C37 FALSE (word ending in แ โ ใ ไ throws), C40 FALSE ("abc." loses the period), C41 FALSE (break after such a vowel), C45 FALSE (duplicate pending states): negations + partials |
| C48 | data/*.tsv as a table | kernel decision over the whole table |
| C50,C51,C52 | main's two option passes and dispatch | induction over argument lists; C51 FALSE (argv[1] instead of argv[i]): negation + partial |
| C53 | UTF-8/UTF-16 transcoding | round trip by case analysis and induction |
| C54 | parser + listing | every edge belongs to a reading; FALSE for the whole list (alternatives are recombined at shared nodes): two negations; exact description of the list; equal to the readings for `Unmixed` texts |
| C55 | `main` end to end | composition of the results above; FALSE for JSON on words without reading: negation + exact condition (`C55_exact`) |
| C56 | Thai notation + parser | exact respelling, matched with the vowel patterns of C49 by whole-table decisions; FALSE for sounds that Thai cannot spell: negation + partial; exact: read back if and only if `Respellable` (`C56_exact`, from facts about every written rime and onset) |
| C57 | parser main loop | potential of the pool on ราคราค…ราคา, doubled by each pair of unlinked and linked states at one position; FALSE: negation + linear bound without shared consonants |
| C58 | DoParse and main with output streams and status | induction over outputs and words, relating the streams to C52's blocks |
| C59 | main of gen-lookup-dict over a file store | FALSE (output truncated before the source is read, results of writing ignored): negations + partial, pipeline to the lookup of C31 |
| C60 | program with damaged dictionary files | FALSE: negations + exact cases, from C33 and C58 |
| C61 | pointers of Dict and Parser as handles on a heap | ownership invariant over operation sequences; FALSE for copies and throwing opens: negations + partial |
| C62 | multimaps as lists, DAGSylStrings | refinement of both views to one list of edges in order of insertion; lexicographic order of the path enumeration |
| C63 | parser + listing + delimited output | the rules look at their neighbourhood only: derivations of the whole split and join at the cut; routes of the graph factor through the node of the cut; FALSE for abbreviations after other characters: negation + partial |
| C64 | parser with 32-bit ints | simulation by the unbounded parser: all positions of a state are within the text; FALSE for dictionary entries with a huge end position and for long texts: negations + partial; Props/Overflow: for any length and dictionary, overflow exactly when a partial reading leads too far (`C64_exact`) |
| C65 | parser + listing + raw notation | FALSE: negation; routes of equal raw text agree syllable by syllable, since the raw text of a syllable can be read off the line and literals are determined by where they begin |
| C66 | parser + listing | FALSE: negation; every rule of the grammar is monotone in the end of the token where the break cuts no spelling (`SoftBreak`); each condition of `SoftBreak` is shown to be needed by a text (`C66_each`) |
| C67 | Thai notation + parser + listing | FALSE: negations; exact condition from C56 for each syllable and C63 for the hyphens between them, by induction over the line |
| C68 | Thai notation + parser + listing + data | the irregular syllables are found by a whole-table decision over sounds, clusters, vowels, finals and tones; each is traced back to the letters that spell it; then C67 |
| C69 | parser + listing + data | every edge of a reading begins a character: invariant over the rules; the node of a pre-syllable counts as one character begun |
| C70 | parser + dict + output | the edges of the listing, first occurrences only, are the outgoing edges of each node in their order; a word found whole in the dictionary is parsed in three turns of the loop |
| C71 | output | joined texts free of the delimiter are split in one way; Roman lines are peeled into onset, vowel letters and final, the final recovered from the consonants between two vowels by a whole-table decision. FALSE for literal text, for phonetic lines with blanks and for Roman lines of certain neighbours: negations + partials |
| C72 | output | texts are cut into onset, vowel and mark, compared by whole-table decisions; one representative for each class. FALSE: negations, exact characterisation of the pairs written alike, partial for syllables that can be respelled |
| C73 | dict, parser, thpronun | the loop over the dictionary words as a function of the accepted words, however it ends; the runs of the generator and of the program put together |
| C74 | dict, parser | the loop over dictionary words for a dictionary of any contents: what is stored under a word, words whose number leads out of the data; every dictionary is replaced by a sound one up to the first such word that is met |
| C75, C76 | parser, lattice | edges that a step can add at a position (from the bound on grammar readings), periods stretch an edge once only; number of paths by C63 on ราคา ราคา … |
| C77 | gen-lookup-dict with its messages | FALSE (NUL in a line, lines of more than 255 bytes): negations + exact description of the output for all sources |
| C78 | SylString::endPos, assignment of PronunFrac | edges of the DAG of a string by C16; `Forward` for listed pronunciations |
| C79 | GroupedJsonOutput of lists | FALSE (pieces are exchanged at shared positions): negations + exact denotation by `Woven` (C16, C17), exactness on listings by C70 |
| C80 | PronunChain::mergeSingles | FALSE (end of the first part is kept): negation + exact description by `Merged` |
| C81 | parser (tone marks) | every rule of the grammar is preserved by exchanging marks (`Lemmas/Retone`), then derivations (C43), edges and listed ways (C54_exact) |
| C82 | parser (silenced letters) | nothing is read from a silenced letter on (`stuck_rule`), so steps that end there can be left out; all others are the same in both texts (`Lemmas/Mute`); the letters left out are each a counterexample (`C82_each`) |
| C83 | parser, thcons, sylout-thai (assertions) | function by function, the code with assertions aborts or agrees (`Lemmas/ParserAssert`); which calls abort is known from the invariants of the states, and the state that aborts is found from the derivation of its node, as for C37 |
| C84 | lattice, state pool (iterators) | an iterator is a suffix of the elements (`hd`); each loop by induction on the suffix (`Lemmas/Iter`, `IterMerge`, `IterRest`); of two edges merged the second survives the removal of the first unless they are the same |
| C85 | parser | every rule of the grammar (`Spelled`) is walked through with the character before (`Pv`) and the pairs so far (`Seg`, `Lemmas/Adjacent`), then every step of a reading; the converse by one word for each pair of the whole alphabet, checked by the kernel (`Lemmas/AdjacentWords*`) |
| C86 | parser, pron-dag | every onset and rime of the grammar gives the letters of its sounds (`OF`, `RF`, `Lemmas/Heard`); nodes of two-in-one syllables are decoded to the place behind the first consonant (`PlaceOf`, unique because a syllable has at most 40 characters); induction along the way; the shipped dictionary by a checker (`Lemmas/HeardWords`) |
| C87 | parser, pron-dag | as C86 in the other direction: every onset, rime and run of skipped letters lists its unheard letters (`OA`, `RA`, `Cov`, `Lemmas/Unheard`), tied to the places of the initial and final consonant; periods and other text hold no consonants; letters in dictionary words are exempt |
| C88 | parser, pron-dag | every rime lists the vowel signs and tone marks of its part and the row of the table of spellings it belongs to (`RV`, `Wr`, `Lemmas/Voiced`); onsets hold no signs and give the letter that decides the tone (`OV`); the leading vowel of a two-in-one syllable is carried along with its inner node (`PlaceLead`); syllables of dictionary words are exempt |
| C89 | parser | one relation `Resound` on texts (equal, or letters of one group, none special); every predicate of the grammar is carried over with the letter replaced (`Lemmas/SameSound`), so that the readings are the same edges; the table of special places is checked entry by entry for being needed (`C89_each`, whole table) |
| C90 | all | joins C50, C52, C58 (options, words, streams), C53 (decoding), C37 (exceptions), C54 (which pronunciations), C39, C21, C79 (formats), C48 (shipped dictionary) into one statement about `mainS` that mentions no part of the parser (`UtfForms`, `Pronunciations`, `ShowsAll`, `Printed`, `Printable`) |
| C91 | parser | one relation `AiTwin` on texts (equal, or both one of the two signs); every predicate of the grammar but the rime of ไ is carried over (`Lemmas/AiVowel`); the silent ย after ไ is what remains |
| C92 | parser | as C91, with a relation on texts that looks one character back; the grammar never asks for า or for a linking vowel directly after ฤ or ฦ (`RuTwin.after`, `afterOnset`, `afterMark`), so that the exchange is never seen (`Lemmas/RuLong`) |
| C93 | lattice/pron-dag | invariant of both merging loops (`Tidy`): every alternative is a way in the original graph and the nodes inside it are gone, so no alternative begins with another; hence the grouped form is a uniquely readable code of listed pronunciations (`Lemmas/Compact`) |
| C94 | thpronun | a small reader of help texts (`Spec/Help`) applied to the modelled text; the entries by evaluation, the options by C50 and C51 |
| C95 | lattice/pron-dag, parser | false: the arrows of ฤกอก are a bridge (0→1→4, 0→2→4, 1→2) with no node that could be removed and no parallel arrows, and those of a text are found by C63; explicit list of 3^(n+1) ways. Upper bounds by C93 and C76, and 4^n since lines differ in their end positions (`C93_lines`) and those are ways with or without pre-syllable nodes (C44) |
| C96 | parser | the rules of the grammar transfer between the two texts (`Lemmas/Opaque`): tokens and dictionary words lie in text that is the same, a syllable is read by the characters of its token and a consonant after it (`spelled_local`); then routes and matching as in C92 |
| C97 | dict, parser, data | false: the alphabet of the trie is larger than the set of characters of a token, and shorter words are taken too; partial by the rules (only the word step applies) and routes. The shipped words: those without a shorter match by C42, seven by evaluation with the entries that occur in them (`C42_local`) |
| C98 | parser + listing + data | upper bound of every clause of the grammar (`Wide.spelled_le`), then the number of letters begun before a node as a potential along the edges, as in C69; the widest spelling repeated for the converse |
| C99 | parser + listing | every clause of the grammar looks at most three characters past where it stops (`Near.spelled`), the abbreviation test four past its start, the lookup as far as the longest word; so a rule carries over to the other text (`Near.rule`); a reading is cut at the node (`Near.cut`) and continued along the edges of the other graph |

## Disagreements between code and properties

Each is proved in Lean with a concrete witness (`…_false`); a `_partial` theorem says what holds instead.

1. A word that ends in แ, โ, ใ or ไ ends in `std::out_of_range` (`ParseOtherLV` lacks the bound check that `ParseSaraE`
   has): `C37_false`; `C37_exact` says exactly when. With a word break right after such a vowel, the syllable crosses the
   break: `C41_false`.
2. `JsonOutput` dereferences `begin()` of an empty list: undefined behaviour for a word without reading
   (`C23_json_false`), reachable from the command line with `-j` and an empty line or the word "ะ"
   (`C55_json_false`, `C55_noreading_false`).
3. Literals are printed into JSON without escaping: `C21_quote_false`, `C21_injection_false`, `C22_quote_false`.
   The output is right exactly for words without quotation mark, backslash and control characters: `C21_word`, `C22_word`.
4. `Syl::operator==` ignores the end position, `<` does not, so a fraction can hold alternatives that are equal:
   `C11_unique_false`.
5. `mergeParallels` leaves fractions with end position -1: `C19_false`.
6. `RomanOutput` forgets the hyphen rule after a blank and counts a leading blank as a syllable: `C27_hyphen_false`,
   `C27_leading_false`.
7. "abc." loses the period into the literal (`C40_false`); a period right behind a break is added to the syllable
   before the break (`C41_dot_false`).
8. `StatePool::add` leaves several states with the same position and flag when they were not adjacent (`C45_false`). As a
   consequence the work is exponential in the length of some words: ราคราค…ราคา of 3n + 1 letters takes more than 2^n
   turns of the main loop (`C57_exp`, `C57_false`).
9. `main` compares `argv[1]` instead of `argv[i]` with "help": `C51_false`, `C51_other_false`; with a first argument
   shorter than two bytes this reads beyond the string: `C51_ub_false`. `--help` and `--version` exit with status 1.
10. `Dict::open` keeps the trie if only the data cannot be read; the next match is undefined behaviour (`C33_false`). A
    generated dictionary without entries cannot be opened (`C35_false`).
11. `gen-lookup-dict` stops silently at the first malformed line (`C32_false`) and cuts long lines (`C32_long_false`).
12. The middle tone on a dead syllable cannot be spelled; the Thai notation prints another tone (`C28_dead_false`).
13. Some Thai words have no reading at all, e.g. "ะ" (used in `C55_noreading_false`).
14. Cluster and vowel codes of syllable descriptions are not checked: `C08_printable_false`.
15. `mergeSingles` on a cyclic DAG can be undefined behaviour (`C18_loop_false`): always if it has a ring, a part where every node has one edge in and one out (`C18_ring`), never if every node is connected with a beginning or an end (`C18_returns_endless`), and exactly for rings if syllables tell the edges of a node apart (`C18_exact`). The parser never builds one (C38).
16. The listing of a DAG recombines alternatives that meet at a node, so that ราคลา is also read ราค-คลา, which no
    derivation gives: `C54_false`. The same happens with the pre-syllables of บริ and จระ: `C54_false_pre`. Words of several syllables in the dictionary, and words with periods beside abbreviations, mix as well: `C54_each`.
17. The Thai notation is not always readable: seven kinds of syllables are not among the readings of their own
    respelling (`C56_false`); `C56_exact` says which syllables are.
18. (No property claims otherwise.) A word-final คฤ, พฤ … gives no reading in `ParseThCons`, and neither does ฤ before
    anything but a consonant, ๅ or า. The grammar of `Spec/Grammar` records this as it is.
19. `gen-lookup-dict` opens its output for writing before it reads the source: a refused source leaves the old dictionary
    empty (`C59_false`), the same path twice replaces the source by an empty dictionary with status 0 (`C59_same_false`),
    which `thpronun` cannot open (`C35_false`). Errors while writing are not noticed (`C59_disk_false`).
20. A dictionary file with a negative size field ends the program by `bad_array_new_length` before any word or message
    (`C60_size_false`), and the file stays open (`C61_leak_false`). `Dict` can be copied, and the copies free the same
    memory (`C61_copy_false`); the program never copies one.
21. An abbreviation that follows anything but a space or a period, e.g. an opening parenthesis, makes the whole line
    unreadable: กา and ก. have a pronunciation, กา(ก. has none (`C63_false`).
22. `int` overflow (undefined behaviour) in the position encoding: a pre-syllable more than 21 million units into a text
    (`C64_false_long`), or a text like 1กา with a dictionary entry for กา like `k_A_0@2147483647`, which is read without
    a range check (`C64_false_entry`). These two are the only ways (`C64_exact`).
23. The list of pronunciations repeats itself: หอก is printed as หะ-อก, หอก, หะ-อก, because ห can be read as a
    pre-syllable and as a syllable of its own (`C65_false`). The two differ only in the node between the syllables, which
    the raw notation alone shows (`C65_raw`).
24. **C66** A word break can introduce a reading: เทยก is read เท-ยก with a break after เท, but without breaks only with
    the vowel เ◌ย (`C66_false`). Other spellings that depend on what follows behave alike (◌ื and ฤ before the break, รร or
    an abbreviation cut by it, a single consonant, which becomes an abbreviation when the break leaves it alone);
    `SoftBreak` lists them, and for all other breaks the property holds (`C66_partial`). The list is not longer than
    needed: for each of its sixteen conditions a break that meets the other fifteen adds a reading (`C66_each`).
25. **C67** The Thai notation of the program cannot be given back to it: the dots below (phinthu) are other text to the
    parser (`C67_dots_false`). Without the dots a line is read back exactly when all its syllables can be spelled
    (`C67_exact`); the rules themselves produce others, e.g. เกยา with the long e before y (`C67_false`).
26. **C68** The shipped dictionary gives สรเพชญ as `sra_1@2,P_et3@6`: a cluster sr, which no Thai spelling has, so that its
    Thai line is read otherwise (`C68_data_false`). All other readings of the shipped dictionary can be written (`C68_data`).
27. **C71** Roman lines are ambiguous: มักหา and มะขา are both "makha" (`C71_roman_false`); a hyphen is
    written only before a vowel and, after a vowel, before ng, as in the Royal Institute's rule. `Blurred` lists the neighbours concerned
    (k, t, p before h; k, t, p, n, m before a single r, l, w), all of them ambiguous (`C71_roman_each`). In phonetic lines
    the blank between words is also the delimiter of syllables (`C71_phonetic_false`). Literal text is printed as it is and
    can imitate delimiters (`C71_literal_false`).
28. **C72** Thai notation does not tell apart: a dead syllable in the even tone and one in the tone of the bare spelling;
    short and long ia, uea, oe before a final; e, ae, ua, au short and long under a tone mark; e and oe before y; a cluster of ห and the leading ห
    (`C72_thai_false`, exactly `C72_thai`). Short and long differ in Thai words as well (เล่น, เก้า), where the writing shows
    no more than the program does. The pronunciations that the rules give for ordinary words are told apart (`C72_word`).
29. **C74** The numbers in a dictionary file are used as offsets into its data without a check, and the data are not
    checked to end with a NUL: a damaged file that is opened without complaint makes the program read beyond the data when
    a word with such a number is met (`C74_false`), and text like `k` beyond its own end (`C74_short_false`). Exactly
    which texts can be parsed with a given file is said by `C74_exact`.
30. **C76** The list of pronunciations grows exponentially with the text: ราคา repeated n+1 times with blanks between them
    has 2^(n+1) of them (`C76_exp`). The DAG they are listed from is of linear size (`C75_linear`).
31. **C77** gen-lookup-dict ends with status 0 although it has stopped at a line without TAB (`C77_status_false`; it does say
    so), and silently drops data after a NUL (`C77_false`) or takes a line of more than 255 bytes for two entries
    (`C77_long_false`). `fprintf (stderr, "%08lx", *pWord)` (line 257) passes a 32-bit `AlphaChar` where `unsigned long`
    is expected: undefined in C, and not modelled as such (the model prints the eight digits meant).
32. **C79** `GroupedJsonOutput::output (const list<SylString>&)` goes through a DAG, where pronunciations are joined at equal
    positions: the list กะ-งะ, ขะ-ยะ is printed as กะ or ขะ, then งะ or ยะ (`C79_false`); กะ in a list with ขะ-ยะ is lost when
    กะ ends where ขะ does (`C79_lost_false`). Lists that come from a DAG of the parser are closed and printed exactly (`C79_listing`).
33. **C80** `PronunChain::mergeSingles` appends the string of the next fraction but not its end position, so that a merged
    fraction says it ends where its first part does (`C80_false`). Nothing in the program asks a merged fraction for its end.
34. **C82** A silenced letter is looked at by rules that do not see the thanthakhat: เกรร์ is not split into กร and the rest
    because of รร, เกอ์ง has no reading because อ is taken for the vowel, and ฤ before ห์ or ฮ์ does not join พ or ค since
    these letters cannot be final (`C82_false`, `C82_each`). For all other letters the property holds (`C82_partial`).
35. **C83** Built with `--enable-debug` the program aborts at parser.cxx:293 (`pos < stopPos` in `MatchInitCons`) when a leading
    vowel other than เ is the last letter of its token: `ParseOtherLV` steps over the vowel and does not look whether a letter
    follows (`C83_false`, exactly `C83_exact`). Without assertions the end of the text makes the program throw (finding 1), and
    before a break it goes on reading beyond the token (C41). No other assertion can fail with breaks inside the text.
36. **C84** `FracDAG::mergeSingles` reads `it->first` after `removeEdge` has erased an edge; if the edge is a loop this is `it` itself
    (`C84_false`). DAGs of words are acyclic, so that this does not happen (`C84_word`). `removeEdge` takes its label by value;
    taken by reference the label would be gone before it is compared in the second map (parser.cxx:1914 passes `i->second.edgeVal`).
37. **C85** The parser accepts some pairs that Thai orthography does not know: a vowel sign or tone mark after "ฤ" (กฤิ is read),
    a tone mark before maitaikhu (แก่็ง), and lone signs such as กื at the end of a word. It does not normalise: a tone mark
    typed before ุ or ู, which is canonically equivalent to the usual order, makes the word unreadable (`C85_order`).
38. **C89** The letters of a sound are not interchangeable: clusters (ตรา has one, ฏรา not), silent ร (เพชร), -อระ (ธรกา, ฑรกา), "ฤ" after and
    before them, silent ◌ิ and ◌ุ (ชาติ) and บดี are rules about single letters (`C89_false`, `C89_each`). This is Thai spelling rather than
    a defect, though some gaps look accidental: ฃ and ฅ, which are only used for ข and ค, make no clusters. Everywhere else letters of the
    same sound are read alike (`C89_partial`).
39. **C91** ไ may be followed by a silent ย (ไทย), ใ may not (`C91_false`): ใทย is not read as one syllable. This is again Thai spelling; it is
    the only difference between the two signs (`C91_partial`), and ไ is never read in fewer ways (`C91_more`).
40. **C95** Grouping (`-g`) can leave an exponential number of lines (`C95_exp`): it joins a node with one way in and one way out and parallel
    edges, but a graph such as that of ฤกอก has neither, and lines are written for each way through the whole text rather than for each
    stretch between nodes that all ways pass (here the spaces).
41. **C97** An entry whose word contains ฯ, ๆ, a Thai digit or one of some signs (`C97_signs`) is accepted by gen-lookup-dict, which says
    nothing, but the parser never finds it (`C97_dead`): such characters end a token. With an entry for ฯลฯ the parser has no pronunciation for
    ฯลฯ at all (`C97_false`), so that plain JSON output of it is undefined behaviour (C55).
42. **C97** A shorter entry that begins the word is read besides the longer one (`C97_short_false`). In the shipped data this gives สิริกิติ์ a second
    pronunciation, ending in กิ instead of กิด, by สิริ and the rules (`C97_shipped_false`); no other shipped word is affected (`C97_shipped`).

{"id": "C01", "title": "Spoken tone follows the Thai tone rules", "statement": "ToneFromWritten returns the tone prescribed by the traditional Thai tone rules (mid/high/low class x written mark x dead/live x short/long), returns the written tone when no rule changes it, and never turns a real tone into INVALID.", "quantifier": "every consonant class, written tone, deadness and vowel length", "why_tests_cant": "The rule must agree with the table in all 5x6x2x2 combinations, and every syllable the parser builds goes through it.", "anchors": ["thortho/thcons.cxx:ToneFromWritten"]}
{"id": "C02", "title": "Consonant tables are total on Thai consonants and mutually coherent", "statement": "For every Thai consonant character InitConsClass/InitConsSound return a real class and sound, the class is MID exactly when the sound is one of the seven mid-class sounds, the EndConsClass is NONE exactly for ho hip, o ang, ho nokhuk (and ru, lu), and a character outside ko kai..ho nokhuk is outside the functions' domain (undefined behaviour).", "quantifier": "every 16-bit character", "why_tests_cant": "Three parallel 46-entry tables and two output tables have to agree at every index.", "anchors": ["thortho/thcons.cxx:InitConsClass,InitConsSound,EndConsClass", "output/sylout-thai.cxx:ThaiMidConsSet_"]}
{"id": "C03", "title": "Syllable comparison is a strict total order with consistent operators", "statement": "operator< on Syl is irreflexive and transitive, a > b iff b < a, <= and >= are the negations of > and <, and two syllables neither of which is less than the other agree on everything observable except that literals compare by text and end position.", "quantifier": "all pairs and triples of syllables, literal or not", "why_tests_cant": "Order laws quantify over all triples; sorting code silently misbehaves if one of them fails.", "anchors": ["sylstring/syl.cxx:operator<,operator>", "sylstring/syl.inl:operator<=,operator>="]}
{"id": "C04", "title": "Syllable equality is an equivalence that ignores position", "statement": "operator== is reflexive, symmetric and transitive, does not depend on endPos, and for two syllables with the same endPos exactly one of a<b, a==b, a>b holds.", "quantifier": "all syllables and end positions", "why_tests_cant": "Algebraic laws over all values; the mismatch between == (ignores endPos) and < (uses it) only shows on special pairs.", "anchors": ["sylstring/syl.cxx:operator==,operator<,operator>"]}
{"id": "C05", "title": "SylString comparison is lexicographic, total and consistent", "statement": "operator< on SylString is the lexicographic order induced by Syl's order (a proper prefix is smaller), it is irreflexive and transitive, a > b iff b < a, and == holds iff the strings have equal length and equal syllables position by position.", "quantifier": "all syllable strings of any length", "why_tests_cant": "Unbounded lengths and all triples.", "anchors": ["sylstring/sylstring.cxx:operator==,operator<,operator>"]}
{"id": "C06", "title": "Raw syllable notation round-trips", "statement": "Constructing a Syl from the text that RawSylOutput prints for a valid non-literal syllable gives back exactly that syllable, including its end position, whatever the (positive, zero or negative) end position is.", "quantifier": "every valid syllable and every int end position", "why_tests_cant": "90720 component combinations times all integers; decimal printing and stoi have to be inverse on all of them.", "anchors": ["output/sylout-raw.cxx:RawSylOutput::output", "sylstring/syl.cxx:Syl(const std::string&,int)", "sylstring/sylcomp.cxx"]}
{"id": "C07", "title": "Raw pronunciation strings and alternatives round-trip", "statement": "Joining raw syllables with ',' (the -w output) and constructing a SylString from it gives back the same syllables in order; joining such strings with ';' and splitting them as a dictionary entry gives back the same list of alternatives.", "quantifier": "all non-empty lists of valid syllables, all non-empty lists of such lists", "why_tests_cant": "Unbounded lists; separators must never occur inside a field.", "anchors": ["output/output-delim.cxx", "sylstring/sylstring.cxx:SylString(const string&)", "parser/parser.cxx:MakeSylStrings"]}
{"id": "C08", "title": "Syllable descriptions of the documented length are handled without undefined behaviour", "statement": "Syl(desc) with at least 5 characters either yields a syllable or throws a std exception, never undefined behaviour; it yields a syllable exactly when the initial, final and tone codes are in their tables and any '@' suffix is a number; every syllable it accepts can be printed in raw notation.", "quantifier": "every byte string", "why_tests_cant": "All byte strings; the unchecked casts of the second and third code only show on codes nobody writes in tests.", "anchors": ["sylstring/syl.cxx:Syl(const std::string&,int)", "sylstring/sylcomp.cxx:InitConsCodeToSound,EndConsCodeToClass,ToneCodeToTone"]}
{"id": "C09", "title": "Shifting end positions translates the whole pronunciation", "statement": "shiftEndPos(o) moves every ordinary end position from e to e+o and every encoded pre-syllable position for span (b,e) to the one for span (b+o,e+o); shifting by o1 and then by o2 equals shifting by o1+o2; nothing but end positions changes.", "quantifier": "all strings, all non-negative offsets, all spans", "why_tests_cant": "Arithmetic encoding over all integers.", "anchors": ["sylstring/sylstring.cxx:shiftEndPos", "parser/parser.cxx:AddSyl"]}
{"id": "C10", "title": "Alternatives of a fraction are always sorted", "statement": "After any sequence of += operations starting from an empty PronunFrac, iterating it yields strings in non-descending order.", "quantifier": "all sequences of additions (strings or other fractions)", "why_tests_cant": "Invariant over all histories.", "anchors": ["lattice/lattice.cxx:PronunFrac::operator+="]}
{"id": "C11", "title": "Alternatives of a fraction are unique and none is lost", "statement": "After any sequence of += operations the fraction contains, up to ==, exactly the strings that were added, and contains no two == strings.", "quantifier": "all sequences of additions", "why_tests_cant": "Uniqueness depends on insertion order because < looks at end positions and == does not.", "anchors": ["lattice/lattice.cxx:PronunFrac::operator+=(const SylString&)"]}
{"id": "C12", "title": "Merging single-alternative fractions does not change the readings", "statement": "PronunChain::mergeSingles and PronunLatt::mergeSingles keep the list of readings obtained by choosing one alternative per fraction and concatenating, and leave no two adjacent single-alternative fractions.", "quantifier": "all chains and lattices", "why_tests_cant": "Unbounded chains, arbitrary numbers of alternatives.", "anchors": ["lattice/lattice.cxx:PronunChain::mergeSingles,PronunLatt::mergeSingles"]}
{"id": "C13", "title": "Outgoing and incoming views of a DAG always agree", "statement": "After any history of addEdge, removeEdge, removeDirectEdges and unionDAG on a DAG, the edges seen from their sources are exactly the edges seen from their targets, both views are sorted by node, and no edge occurs twice.", "quantifier": "all histories of operations, all edge values", "why_tests_cant": "Invariant over all histories of two redundant multimaps.", "anchors": ["lattice/dag.inl:addEdge,removeEdge,removeDirectEdges,unionDAG"]}
{"id": "C14", "title": "A DAG behaves like a set of edges", "statement": "addEdge returns true iff no equal edge was present and afterwards the edge exists; removeEdge returns true iff it was present and afterwards it does not exist; removeDirectEdges removes exactly the edges between the two nodes; unionDAG is set union; inDegree/outDegree are the numbers of edges of the set at the node.", "quantifier": "all reachable DAGs and all operations", "why_tests_cant": "Refinement to an abstract set for every state.", "anchors": ["lattice/dag.inl"]}
{"id": "C15", "title": "Listing the pronunciations of a DAG gives exactly its maximal paths", "statement": "For every acyclic DAG the list produced for the plain, Roman and JSON outputs contains exactly one entry per maximal path starting at node 0 (multiplicities included), each being the syllables along the path in order.", "quantifier": "all acyclic DAGs of any size", "why_tests_cant": "Number of paths is exponential; recursion over arbitrary graphs.", "anchors": ["output/ioutput.cxx:DAGSylStrings"]}
{"id": "C16", "title": "Rebuilding a DAG from its pronunciations loses and adds no edge", "statement": "PronunDAG(list of strings) contains exactly the edges of the strings; if every edge of a DAG lies on a path from node 0 and carries the end position of its target, building a PronunDAG from the DAG's pronunciation list yields the same edge set.", "quantifier": "all lists of strings, all such DAGs", "why_tests_cant": "Unbounded graphs.", "anchors": ["lattice/pron-dag.cxx:PronunDAG,addSylString", "output/ioutput.cxx:DAGSylStrings"]}
{"id": "C17", "title": "Grouped output represents exactly the same pronunciations as the flat list", "statement": "For every acyclic pronunciation DAG whose root has no incoming edge, the set of readings expanded from fracDAG().lattice() equals (up to syllable equality) the set of strings in the flat list.", "quantifier": "all acyclic pronunciation DAGs of any size", "why_tests_cant": "Two different graph rewritings with restart loops; exponentially many readings.", "anchors": ["lattice/pron-dag.cxx:fracDAG,mergeSingles,mergeParallels,lattice,nodeLattice"]}
{"id": "C18", "title": "Grouping terminates and leaves at most one fraction between two nodes", "statement": "fracDAG() terminates on every DAG without self-loops and in its result no two edges share both endpoints.", "quantifier": "all DAGs without self loops", "why_tests_cant": "The loops restart from the beginning and skip one element after each restart; termination and completeness of that scheme is an argument over all graphs.", "anchors": ["lattice/pron-dag.cxx:FracDAG::mergeSingles,FracDAG::mergeParallels"]}
{"id": "C19", "title": "A fraction knows its end position", "statement": "In fracDAG() every fraction's endPos() equals the node its edge leads to.", "quantifier": "all pronunciation DAGs", "why_tests_cant": "Depends on which rewriting produced the fraction.", "anchors": ["lattice/pron-dag.cxx:mergeParallels", "lattice/lattice.inl:PronunFrac::PronunFrac()"]}
{"id": "C20", "title": "Delimited output is one line per pronunciation, syllables joined by the delimiter", "statement": "DelimOutput prints each pronunciation on its own newline-terminated line, in order; a pronunciation is its maximal blank-free groups of syllables, each joined by the delimiter, with one space per blank.", "quantifier": "all lists of syllable strings, any delimiter, any syllable notation", "why_tests_cant": "All lists and blank placements.", "anchors": ["output/output-delim.cxx"]}
{"id": "C21", "title": "JSON output is valid JSON denoting exactly the pronunciations", "statement": "A JSON reader applied to JsonOutput's text for a list of pronunciations returns the list of lists of syllable texts.", "quantifier": "all lists of pronunciations", "why_tests_cant": "Validity depends on the characters occurring in literals; all strings.", "anchors": ["output/output-json.cxx"]}
{"id": "C22", "title": "Grouped JSON output is valid JSON denoting exactly the lattice", "statement": "A JSON reader applied to GroupedJsonOutput's text for a lattice returns chains of fractions of alternatives of syllable texts, exactly as in the lattice, also when the lattice is empty.", "quantifier": "all lattices", "why_tests_cant": "All nested lists and characters.", "anchors": ["output/output-gjson.cxx"]}
{"id": "C23", "title": "Every output format is defined when a word has no pronunciation", "statement": "For a DAG without pronunciations (unparsable or empty word) all output formats return a string.", "quantifier": "every DAG with no path from node 0, every format and notation", "why_tests_cant": "Formats differ in how they iterate; dereferencing an end iterator is undefined behaviour that a test may not notice.", "anchors": ["output/output-json.cxx:output(list)", "output/output-roman.cxx", "output/output-delim.cxx", "output/output-gjson.cxx"]}
{"id": "C24", "title": "All notations print every valid syllable and only reject invalid ones", "statement": "Raw, Roman, Phonetic, Soundex and Thai notation return a non-empty text for every valid syllable, literal or blank; none is undefined; they throw only for non-blank, non-literal syllables with an invalid component relevant to the notation.", "quantifier": "all syllables", "why_tests_cant": "Five sets of lookup tables, 90720 valid combinations, plus all invalid ones.", "anchors": ["output/sylout-*.cxx"]}
{"id": "C25", "title": "Soundex identifies exactly r/l, vowel length, tone and cluster differences", "statement": "Two valid syllables have equal Soundex code iff they have the same initial sound up to r=l, the same vowel up to length and the same final; the code always has three characters.", "quantifier": "all pairs of valid syllables", "why_tests_cant": "Billions of pairs.", "anchors": ["output/sylout-soundex.cxx"]}
{"id": "C26", "title": "Phonetic notation distinguishes syllables", "statement": "Two valid syllables whose phonetic notation is equal have the same components (clusters on a silent initial excepted, where they are indistinguishable).", "quantifier": "all pairs of valid syllables", "why_tests_cant": "Billions of pairs, variable-length fields concatenated without separators.", "anchors": ["output/sylout-phonetic.cxx"]}
{"id": "C27", "title": "Romanization ignores tone and length and hyphenates by the Royal Institute rule", "statement": "The Roman text of a syllable depends only on initial, cluster, vowel quality and final; in a pronunciation a hyphen stands before a non-first syllable of a blank-free group exactly when it begins with o ang, or begins with ngo ngu after an open syllable, and nowhere else; capitalization only changes the first letter.", "quantifier": "all syllable strings", "why_tests_cant": "All lists of syllables and blank placements.", "anchors": ["output/output-roman.cxx", "output/sylout-roman.cxx"]}
{"id": "C28", "title": "Thai respelling keeps the tone", "statement": "Reading the respelling's initial consonant letter and tone mark with the Thai tone rules (for the respelled syllable's deadness and length) gives the tone of the syllable, except for the non-existing mid tone on dead syllables.", "quantifier": "every valid syllable", "why_tests_cant": "All combinations of sound, cluster, vowel, final and tone through three different tone tables and eleven vowel layouts.", "anchors": ["output/sylout-thai.cxx"]}
{"id": "C29", "title": "Dictionary size field round-trips", "statement": "Reading back 4 bytes written by FileWriteInt32 yields the same 32-bit value.", "quantifier": "all 32-bit integers", "why_tests_cant": "2^32 values.", "anchors": ["dict/gen-lookup-dict.c:FileWriteInt32", "dict/dict.cxx:ReadInt32"]}
{"id": "C30", "title": "The data bank never overflows and never corrupts earlier entries", "statement": "After any sequence of DataBankAddData calls every returned index reads back exactly the C string added there, indices are strictly increasing, the used size never exceeds the pool size and every write stays inside the pool.", "quantifier": "all sequences of added C strings", "why_tests_cant": "All histories of a growing buffer.", "anchors": ["dict/gen-lookup-dict.c:DataBankAllocate,DataBankAddData"]}
{"id": "C31", "title": "Dictionary lookup finds exactly the entries that prefix the text", "statement": "For a dictionary generated from a list of entries, successive findNext calls at a position report exactly the dictionary words that are prefixes of the remaining text, in increasing length, getData returns the data of the last entry stored for the word, and after the last match findNext keeps returning false.", "quantifier": "all entry lists, texts and positions", "why_tests_cant": "All dictionaries and texts; overwriting, shared prefixes.", "anchors": ["dict/dict.cxx:Match::findNext,getData", "dict/gen-lookup-dict.c:GenDict"]}
{"id": "C32", "title": "The dictionary generator does not silently drop input lines", "statement": "If gen-lookup-dict reports success, every line of the input file has become an entry.", "quantifier": "all input files", "why_tests_cant": "Depends on malformed lines anywhere in the file.", "anchors": ["dict/gen-lookup-dict.c:ReadInput,GenDict"]}
{"id": "C33", "title": "After a failed dictionary load the parser works as without dictionary", "statement": "If loadExceptDict returns false, parsing any word afterwards behaves exactly as with a parser that has no dictionary.", "quantifier": "all dictionary file contents and words", "why_tests_cant": "Only truncated files at particular places show it.", "anchors": ["dict/dict.cxx:Dict::open", "parser/parser.cxx:loadExceptDict,FindExceptions", "thpronun/thpronun.cxx:LoadExceptDict"]}
{"id": "C34", "title": "UTF-8 words of the dictionary source are decoded correctly", "statement": "GetUTF8 applied to the UTF-8 encoding of any code point followed by anything yields the code point and leaves the rest; it rejects a stray continuation byte, and a truncated sequence; it never reads past the terminating NUL.", "quantifier": "all code points and all NUL-terminated byte strings", "why_tests_cant": "1.1 million code points times all continuations, all invalid strings.", "anchors": ["dict/gen-lookup-dict.c:GetUTF8"]}
{"id": "C35", "title": "A dictionary file generated successfully can be opened", "statement": "If GenDict succeeds, Dict::open on the file succeeds and the data bank equals the generated one.", "quantifier": "all entry lists", "why_tests_cant": "All inputs including the empty one.", "anchors": ["dict/gen-lookup-dict.c:DataBankWrite", "dict/dict.cxx:ReadDataBank,Dict::open"]}
{"id": "C36", "title": "Parsing always terminates", "statement": "parseWord terminates for every word, every exception dictionary and every list of break positions.", "quantifier": "all words, dictionaries and break lists", "why_tests_cant": "A worklist loop whose progress depends on every grammar rule consuming at least one character.", "anchors": ["parser/parser.cxx:ParseU16,StatePool"]}
{"id": "C37", "title": "Parsing never crashes", "statement": "parseWord on valid text with a well-formed dictionary and break positions inside the word never throws and never has undefined behaviour.", "quantifier": "all words, well-formed dictionaries and valid break lists", "why_tests_cant": "Every character access in every grammar rule at every position near the end of the word or token.", "anchors": ["parser/parser.cxx"]}
{"id": "C38", "title": "Every pronunciation covers the whole word", "statement": "Every maximal path of the DAG returned by parseWord goes strictly forward through the word and ends exactly at its length; every syllable carries the end position of the node it leads to; no node is a dead end.", "quantifier": "all words, well-formed dictionaries, break lists", "why_tests_cant": "Invariant of a worklist algorithm that unions and edits partial graphs.", "anchors": ["parser/parser.cxx:ParseU16,AddSyl,FindExceptions,FindAbbr"]}
{"id": "C39", "title": "Every pronunciation can be printed in every notation", "statement": "Every syllable in a DAG returned by parseWord (with a well-formed dictionary) is a literal or has valid components, so that no notation throws on it and none prints a blank.", "quantifier": "all words", "why_tests_cant": "Every grammar rule on every input.", "anchors": ["parser/parser.cxx", "output/sylout-*.cxx"]}
{"id": "C40", "title": "Non-Thai text is passed through verbatim", "statement": "Every literal in a pronunciation is exactly the piece of input text it spans; in particular a word without Thai letters or periods has exactly one pronunciation, the word itself as a literal.", "quantifier": "all words", "why_tests_cant": "Arbitrary mixtures of Thai and non-Thai text.", "anchors": ["parser/parser.cxx:ParseU16,SkipNonThai,FindAbbr"]}
{"id": "C41", "title": "Word segmentation is respected", "statement": "No Thai syllable of any pronunciation extends across a word break position.", "quantifier": "all words and break lists", "why_tests_cant": "Every rule's look-ahead at every position.", "anchors": ["parser/parser.cxx:NextWordStop,MatchInitCons,ParseOtherLV"]}
{"id": "C42", "title": "Exception dictionary overrides the rules", "statement": "At a position where some dictionary word matches and is followed by a syllable start or token end, the readings continue only with the dictionary pronunciations of the matching words; otherwise the dictionary has no influence at that position.", "quantifier": "all words, dictionaries, positions", "why_tests_cant": "All dictionary/text combinations.", "anchors": ["parser/parser.cxx:FindExceptions,ParseU16"]}
{"id": "C43", "title": "Merging parse states loses no reading", "statement": "Every sequence of syllables obtainable by applying dictionary, abbreviation, grammar and period steps from the beginning to the end of the word is a path of the resulting DAG, independently of the order and merging of states in the pool.", "quantifier": "all words and all derivations", "why_tests_cant": "All derivations of an ambiguous grammar; pool order.", "anchors": ["parser/parser.cxx:StatePool::add,ParseU16"]}
{"id": "C44", "title": "Pre-syllable positions are unambiguous", "statement": "The negative node number used between a pre-syllable and its main syllable determines the span (begin,end) uniquely for all syllables the grammar can produce, is never a text position, and shifting by an offset is the encoding of the shifted span.", "quantifier": "all spans of at most 100 characters", "why_tests_cant": "Arithmetic encoding; collisions would splice unrelated readings.", "anchors": ["parser/parser.cxx:AddSyl", "sylstring/sylstring.cxx:shiftEndPos"]}
{"id": "C45", "title": "The state pool is a lossless priority queue with one state per position and link flag", "statement": "Popping returns a state with minimal position; adding never loses an edge of any pending state; at any time at most one pending state exists for each (position, link flag).", "quantifier": "all sequences of add and pop", "why_tests_cant": "All histories.", "anchors": ["parser/parser.cxx:StatePool::add,StatePool::pop"]}
{"id": "C46", "title": "Abbreviations are read letter by letter", "statement": "A run of one to four consonants followed by a period at the start of the text or after a space or period (or a single consonant standing alone) is read, without dictionary match, exactly as the letter names in order, each with the vowel of อ (AUU) and the mid tone, or the rising tone for high-class letters, the period belonging to the last letter.", "quantifier": "all words and positions", "why_tests_cant": "All consonant strings and contexts.", "anchors": ["parser/parser.cxx:FindAbbr"]}
{"id": "C47", "title": "Silenced letters are skipped exactly", "statement": "The karan matchers return the position after a consonant (optionally followed by another consonant, sara i or sara u where allowed) and thanthakhat, never pass the stop position, and leave the position unchanged otherwise.", "quantifier": "all words, positions, stops", "why_tests_cant": "All texts and positions.", "anchors": ["parser/parser.cxx:MatchKaranSimple,MatchKaranIU,MatchKaranComplex"]}
{"id": "C48", "title": "The shipped exception data are well-formed", "statement": "Every line of the shipped exception lists decodes, each alternative's end positions go strictly forward and end at the word's length, and all syllables are valid.", "quantifier": "all lines of data/*.tsv", "why_tests_cant": "A malformed line breaks the coverage of every word containing it; parser tests only touch a few lines.", "anchors": ["data/*.tsv"]}
{"id": "C49", "title": "Syllables are read exactly according to the orthography", "statement": "At every position of every word the syllables the parser recognises are exactly those that an independently written spelling grammar (onsets with clusters and leading consonants, vowel signs, tone marks, finals, silenced letters) derives there, with the same end, link flag, pre-syllable, sounds and tone; the edges of the result of ParseWord are exactly those of the readings by these rules. In particular, for every Thai consonant, every simple vowel pattern with optional tone mark, and every final consonant the listed pronunciations contain the expected syllable.", "quantifier": "all words, dictionaries, break functions, consonants, vowel patterns, tone marks and finals", "why_tests_cant": "Unbounded words; even simple syllables are tens of thousands of combinations, and tests only compare with recorded outputs, not with the orthography.", "anchors": ["parser/parser.cxx:ParseThCons,ParseSaraE,ParseOtherLV,EatEndConsSimple,EatEndConsComplex"]}
{"id": "C50", "title": "Command-line options are order-independent and outputs keep command-line order", "statement": "-j, -g, -n and -d apply to all outputs wherever they stand, -g implies -j, the requested notations are printed in command-line order, and Thai, Roman, Phonetic are used when none is requested.", "quantifier": "all argument lists", "why_tests_cant": "All permutations of options and words.", "anchors": ["thpronun/thpronun.cxx:main"]}
{"id": "C51", "title": "Help is recognised wherever it stands", "statement": "An argument --help in any position prints the usage text unless an earlier argument already ended option processing; no argument list causes undefined behaviour.", "quantifier": "all argument lists", "why_tests_cant": "All positions and lengths of arguments.", "anchors": ["thpronun/thpronun.cxx:main"]}
{"id": "C52", "title": "Every word argument is processed exactly once and in order", "statement": "If option processing succeeds, the words analysed are exactly the arguments not starting with '-' in order, or the lines of standard input when there are none, and for each word exactly one block per requested output is printed.", "quantifier": "all argument lists and standard inputs", "why_tests_cant": "All interleavings of options and words.", "anchors": ["thpronun/thpronun.cxx:main,DoParse"]}
{"id": "C53", "title": "Text survives the UTF-8/UTF-16 conversions", "statement": "The literal text printed for a non-Thai piece of the input consists of the same bytes as in the input; surrogate pairs are never split between literals.", "quantifier": "all valid UTF-8 words", "why_tests_cant": "All Unicode strings.", "anchors": ["parser/parser.cxx:parseWord,SkipNonThai", "output/isyl-output.cxx:outputLiteral"]}
{"id": "C54", "title": "Every listed pronunciation is a reading of the word", "statement": "Every syllable string listed for a parsed word is one way of reading the word: it can be obtained by successive grammar, dictionary, abbreviation and literal steps from the beginning to the end of the text.", "quantifier": "all words, dictionaries and word breaks", "why_tests_cant": "Alternatives are merged into one DAG; only a comparison of all paths with all readings can show that merging creates no new pronunciations.", "anchors": ["parser/parser.cxx:AddSyl,parseWord", "sylstring/sylstring.cxx", "output"]}
{"id": "C55", "title": "The program ends normally on every list of words", "statement": "For every list of known options, every missing or well-formed dictionary file and every list of words in valid UTF-8 (arguments or standard input), thpronun exits normally after printing one block per word; it neither crashes, nor throws, nor runs forever.", "quantifier": "all argument lists, standard inputs, dictionary files", "why_tests_cant": "All combinations of formats, options and words, among them empty lines and words without reading.", "anchors": ["thpronun/thpronun.cxx:main,DoParse"]}
{"id": "C56", "title": "A respelled syllable can be read back", "statement": "The Thai respelling of a syllable (option -t), with the dots below removed and parsed again without dictionary, has that same syllable among its pronunciations.", "quantifier": "all syllables", "why_tests_cant": "About 90000 syllables, each respelled by a different combination of onset, tone-mark and vowel-frame rules and read by a different path through the parser.", "anchors": ["output/sylout-thai.cxx", "parser/parser.cxx:ParseThCons,ParseSaraE,ParseOtherLV,ParseRuLu"]}
{"id": "C57", "title": "The work of the parser is polynomial in the length of the word", "statement": "There are constants c and k such that the main loop of Parser::ParseWord, without dictionary and word breaking, ends within c * (n + 1)^k turns for every word of n characters.", "quantifier": "all words", "why_tests_cant": "A test can time some words; a bound for all lengths is a statement about every word, and the words that need exponential time are not among those one would write down.", "anchors": ["parser/parser.cxx:ParseU16", "parser/parser.cxx:StatePool::add"]}
{"id": "C58", "title": "What a run writes before it ends, and its exit status", "statement": "A run of thpronun that ends normally after its words has status 0 and its standard output is the block of each word in order. If an exception ends it, the standard output is the complete blocks of the words before the failing one, then the heading of the failing word and its outputs before the failing one. The standard error holds exactly the two lines about a dictionary that could not be loaded, or nothing. An option that ends the program does so with status 1, before dictionary and words.", "quantifier": "all command lines, inputs, dictionaries and words", "why_tests_cant": "Concerns partial output at any failing word and output, for every option combination.", "anchors": ["thpronun/thpronun.cxx:main,DoParse,LoadExceptDict"]}
{"id": "C59", "title": "gen-lookup-dict generates the dictionary or leaves the files alone", "statement": "A run of gen-lookup-dict either ends with status 0 and the output file holds the dictionary of the input file, which thpronun can load and in which it finds the entries, or it ends with status 1 and all files are as before.", "quantifier": "all file contents and paths", "why_tests_cant": "The damage shows only on refused sources, equal paths or a full disk.", "anchors": ["dict/gen-lookup-dict.c:main,GenDict"]}
{"id": "C60", "title": "An unusable dictionary file does no harm", "statement": "If the dictionary file cannot be used, thpronun says so on the standard error and then does exactly what it does without a dictionary file.", "quantifier": "all contents of the dictionary file, all command lines and inputs", "why_tests_cant": "The cases that fail are files damaged in particular places.", "anchors": ["dict/dict.cxx:ReadDataBank,Dict::open", "thpronun/thpronun.cxx:LoadExceptDict"]}
{"id": "C61", "title": "Dictionaries free everything they own exactly once", "statement": "In the life of a Dict or Parser object, whatever is opened, loaded, copied and closed, no trie, data bank or file is freed or closed twice, and all are freed or closed in the end.", "quantifier": "all sequences of operations and all file contents", "why_tests_cant": "Leaks and double frees show only on particular sequences and damaged files.", "anchors": ["dict/dict.cxx:Dict::open,Dict::close,ReadDataBank", "dict/dict.h:Dict", "parser/parser.cxx:loadExceptDict"]}
{"id": "C62", "title": "Edges and pronunciations keep the order in which they were added", "statement": "outEdges and inEdges list the edges of a node in the order in which they were added; adding puts a new edge last, removing keeps the order of the others, a union adds the edges of the other DAG by source and then in their order. The pronunciations are listed depth first in this order.", "quantifier": "all histories of DAG operations, all acyclic DAGs", "why_tests_cant": "Ties between equal keys of a multimap show only with several edges at a node and particular histories.", "anchors": ["lattice/dag.inl:addEdge,removeEdge,unionDAG", "output/ioutput.cxx:DAGSylStrings"]}
{"id": "C63", "title": "Texts with other characters between them are read piece by piece", "statement": "If two texts end and begin with Thai characters and characters other than Thai stand between them, the pronunciations listed for the whole are exactly those of the first text, the characters between as a literal, and those of the second text, in every combination; printed lines are put together in the same way.", "quantifier": "all pairs of texts and separators, all dictionaries, all notations", "why_tests_cant": "The claim relates the results of three runs on texts of any length; the parser sees the whole text and may look across the separator.", "anchors": ["parser/parser.cxx:parseWord,SkipNonThai", "output/ioutput.cxx:DAGSylStrings"]}
{"id": "C64", "title": "No int of the parser overflows", "statement": "Parsing a text with 32-bit ints, where overflow is undefined behaviour, gives the same outcome as with unbounded integers: no position computation in the parser overflows.", "quantifier": "all texts of up to 2^31/101 UTF-16 units, all dictionaries whose readings lead forward to the end of the word", "why_tests_cant": "The positions of pre-syllables are encoded as -(100*begin+end) and shifted by 101*offset, so an overflow needs texts of megabytes or one hostile dictionary entry; test words have a dozen letters.", "anchors": ["parser/parser.cxx:ParseState::addSyl,FindExceptions,ParseU16", "sylstring/sylstring.cxx:shiftEndPos"]}
{"id": "C65", "title": "No pronunciation is listed twice", "statement": "The list of pronunciations of a text never contains the same syllables twice, so that no line of the printed list is repeated, whatever the notation.", "quantifier": "all texts, all dictionaries, all notations", "why_tests_cant": "The list is a product over the routes of a graph of unbounded size; whether two different routes spell out the same syllables depends on the whole text.", "anchors": ["parser/parser.cxx:ParseState::addSyl", "output/ioutput.cxx:DAGSylStrings", "output/output-delim.cxx:output"]}
{"id": "C66", "title": "Word breaks only narrow the readings", "statement": "Every pronunciation that the parser lists for a text when word breaking is on is also listed when it is off: breaks exclude readings across them and introduce none.", "quantifier": "all texts, all dictionaries, all positions of breaks", "why_tests_cant": "The spelling rules look ahead and behind in many places, so whether a break introduces a reading depends on what stands around it; every combination of letters on both sides would have to be tried, in texts of every length.", "anchors": ["parser/parser.cxx:Parser::parseWord", "parser/parser.cxx:FindBreaks", "parser/parser.cxx:ParseSaraE", "output/ioutput.cxx:DAGSylStrings"]}
{"id": "C67", "title": "The Thai line of a pronunciation can be read again", "statement": "When a line printed in Thai notation (option -t) for a pronunciation is given back to the program, the pronunciation is among those listed, with the hyphens of the line as other text between the syllables.", "quantifier": "all words, all pronunciations listed for them, all dictionaries", "why_tests_cant": "It relates two passes over unboundedly many words: every syllable that rules or dictionary can produce has to be respelled, joined with any others, and read again by rules that look at the neighbouring letters.", "anchors": ["output/sylout-thai.cxx:ThaiSylOutput", "output/output-delim.cxx:output", "parser/parser.cxx:Parser::parseWord"]}
{"id": "C68", "title": "The Thai lines of ordinary words can be read again", "statement": "For a text without the spellings that give syllables Thai cannot write again (ฤ after other consonants than ก ค ต ท น ป พ ศ ส ห; ฤ before ย; ๋ on ทร พร ฟร ฟล ทฤ พฤ; ็ after a tone mark; ย right after a silenced letter; เ◌ย before a vowel sign), and a dictionary whose readings can be written, every listed pronunciation without other text is read back from its Thai line without the dots. A written syllable can be respelled exactly when it is none of the irregular ones, and each of the excluded spellings does occur in a word with a pronunciation that cannot be written. The shipped dictionary qualifies but for one entry.", "quantifier": "all texts, all pronunciations listed for them, all dictionaries", "why_tests_cant": "The condition has to cover every syllable that the rules read anywhere in texts of any length, with every combination of onset, silenced letters, vowel, final and tone mark.", "anchors": ["output/sylout-thai.cxx:ThaiSylOutput", "parser/parser.cxx:Parser::parseWord", "parser/parser.cxx:ParseU16", "data/"]}
{"id": "C69", "title": "No more syllables than characters", "statement": "No pronunciation listed for a word has more syllables than the word has characters (UTF-16 units); every syllable begins at a character of its own. This holds without dictionary, with the shipped dictionary, and with every dictionary whose entries have this property; with any dictionary whose readings lead forward there are at most twice as many syllables as characters.", "quantifier": "all words, all pronunciations listed for them, all word breaks, all such dictionaries", "why_tests_cant": "Pronunciations are paths through a graph in which syllables of different readings are recombined and letters can be shared by two syllables, so that no finite set of words bounds the number of syllables.", "anchors": ["parser/parser.cxx:Parser::parseWord", "lattice/dag.h:DAG", "data/"]}
{"id": "C70", "title": "The raw lines of a word are its dictionary entry", "statement": "The pronunciations that the program prints for a word in raw notation, joined by ';', form a dictionary entry with which the word is pronounced exactly as before: if the line is added to a dictionary file in which no shorter word begins the word, the generated dictionary makes the program print the same text for the word, in the same order, with all output options. A DAG that is built from its own listing has its edges in the same order, and every output of it is the same.", "quantifier": "all words that form one token and have a pronunciation without literal text, all dictionaries before and after, all output options, all acyclic DAGs", "why_tests_cant": "The order of the printed lines depends on the order in which edges are merged while parsing, which differs between the search by rules and the reading of a dictionary entry; grouped output also depends on it through the merging of alternatives.", "anchors": ["output/sylout-raw.cxx:RawSylOutput", "parser/parser.cxx:MakeSylStrings", "lattice/pron-dag.cxx:PronunDAG", "parser/parser.cxx:FindExceptions", "dict/", "thpronun/thpronun.cxx:DoParse"]}
{"id": "C71", "title": "A printed line determines its syllables", "statement": "A printed line tells where one syllable ends and the next begins: two pronunciations printed as the same line in one of the line notations (raw, phonetic, Soundex, Thai, Roman) consist of the same printed syllables. In raw notation they are the same pronunciation, positions included.", "quantifier": "all pronunciations of any length, with and without blanks, with and without capitalization", "why_tests_cant": "Two different pronunciations with the same line can be of any length; a test that compares lines with expected lines never notices that two words are printed alike.", "anchors": ["output/output-delim.cxx:DelimOutput::output", "output/output-roman.cxx:RomanOutput::output", "output/sylout-raw.cxx", "output/sylout-phonetic.cxx", "output/sylout-soundex.cxx", "output/sylout-thai.cxx", "output/sylout-roman.cxx"]}
{"id": "C72", "title": "Different syllables are written differently", "statement": "Two syllables with the same Thai text, or with the same Roman text, are the same syllable; and two pronunciations with the same Thai line are the same pronunciation.", "quantifier": "all pairs of valid syllables; all pairs of pronunciations of any length; all pairs of words, dictionaries and listed pronunciations", "why_tests_cant": "It compares every syllable with every other one, some billions of pairs, and every line with every other line; a test compares a line with the line expected for it and does not see that another pronunciation is printed alike.", "anchors": ["output/sylout-thai.cxx", "output/sylout-roman.cxx", "output/output-delim.cxx:DelimOutput::output", "output/output-roman.cxx:RomanOutput::output"]}
{"id": "C73", "title": "Of a dictionary source only its entries count", "statement": "What a run prints depends on the dictionary source only through its entries, the last one for each word: two sources with the same entries in another order, or that differ in entries replaced by later ones or in words that are no part of the input, make every run write the same to both streams and end in the same way.", "quantifier": "all pairs of good sources, all command lines, inputs, word breakers and texts; dictionary data of any kind, readable or not", "why_tests_cant": "The offsets in the dictionary file and the order of the trie change with every reordering of the source; a test uses one source.", "anchors": ["dict/gen-lookup-dict.c:main", "dict/dict.cxx:Dict::open", "dict/dict.cxx:Match::findNext", "parser/parser.cxx:FindExceptions", "thpronun/thpronun.cxx:main"]}
{"id": "C74", "title": "No dictionary file leads to undefined behaviour", "statement": "A dictionary file that is opened without complaint, whatever it contains and wherever it comes from, can be used: parsing a word with it ends with a pronunciation or an exception, never with undefined behaviour.", "quantifier": "all dictionary files (tries with any numbers, any data), all texts and word breaks", "why_tests_cant": "The harm depends on the meeting of a number in the trie, the length of the data and the positions that the parser comes to; the files that a test uses come from the generator and are sound.", "anchors": ["dict/dict.cxx:Dict::open", "dict/dict.inl:Dict::getData", "dict/dict.cxx:Match::getData", "parser/parser.cxx:FindExceptions", "parser/parser.cxx:MakeSylStrings"]}
{"id": "C75", "title": "The result of parsing takes little space", "statement": "The DAG that ParseWord returns for a word of n characters has at most 2n(145 + nB) edges, where B is the largest number of syllables that all readings of a dictionary word have together: linear in n without dictionary, although the loop that computes it can take exponentially many turns (C57).", "quantifier": "all words, dictionaries and word breakers", "why_tests_cant": "A growth rate concerns all lengths at once; a test measures some words.", "anchors": ["parser/parser.cxx:ParseU16", "lattice/dag.inl:DAG::addEdge", "lattice/dag.inl:DAG::unionDAG"]}
{"id": "C76", "title": "The number of listed pronunciations is bounded by a polynomial", "statement": "For some polynomial P, IOutput::DAGSylStrings of the result of ParseWord has at most P(n) members for every word of n characters.", "quantifier": "all words, no dictionary", "why_tests_cant": "A growth rate concerns all lengths at once; a test measures some words.", "anchors": ["output/ioutput.cxx:IOutput::DAGSylStrings", "output/output-delim.cxx:DelimOutput::output"]}
{"id": "C77", "title": "gen-lookup-dict succeeds silently only if the whole source has been stored", "statement": "If gen-lookup-dict ends with status 0 and nothing on standard error, every line of the source is an entry (UTF-8 word, TAB, data), and the dictionary written gives for each word the data of its last line. Otherwise the first line that is no entry, or the first entry that cannot be stored, is shown on standard error.", "quantifier": "all source files, argument lists and file systems", "why_tests_cant": "The diagnostics must hold for every file contents, including lines of any length and any bytes; a test tries some files.", "anchors": ["dict/gen-lookup-dict.c:main", "dict/gen-lookup-dict.c:GenDict", "dict/gen-lookup-dict.c:ReadInput"]}
{"id": "C78", "title": "A string of syllables ends where its last syllable ends", "statement": "SylString::endPos() is the node to which the string leads in a DAG built from node 0, and 0 for the empty string; it follows concatenation and shiftEndPos(), a PronunFrac assigned a string takes it over, and all pronunciations listed for a word have the length of the word as end position.", "quantifier": "all strings of syllables, offsets and words", "why_tests_cant": "Strings of any length with any positions.", "anchors": ["sylstring/sylstring.inl:SylString::endPos", "lattice/lattice.inl:PronunFrac::operator=", "lattice/pron-dag.cxx:PronunDAG::addSylString"]}
{"id": "C79", "title": "Grouped JSON of a list of pronunciations denotes just these", "statement": "GroupedJsonOutput::output(list<SylString>) is a JSON text whose choices of alternatives, one fraction after the other, are exactly the members of the list.", "quantifier": "all lists of pronunciations of a text", "why_tests_cant": "Lists of any length with any shared positions; the tests show lists that happen to be closed.", "anchors": ["output/output-gjson.cxx:GroupedJsonOutput::output", "lattice/pron-dag.cxx:PronunDAG::PronunDAG"]}
{"id": "C80", "title": "Merging fractions keeps end positions right", "statement": "If in a PronunChain every alternative of every fraction ends where endPos() of the fraction says, the same holds after mergeSingles().", "quantifier": "all chains", "why_tests_cant": "Chains of any length; the tests compare alternatives only (operator== ignores the end).", "anchors": ["lattice/lattice.cxx:PronunChain::mergeSingles", "lattice/lattice.inl:PronunFrac::endPos"]}
{"id": "C81", "title": "A tone mark decides the tone of its syllable and nothing else", "statement": "If tone marks of a word are exchanged for other tone marks (no dictionary word of the text contains one of them, same word breaks), the new word is parsed if the old one is, and its pronunciations correspond to those of the old word: syllable by syllable between the same positions with the same initial, cluster, vowel and final; only syllables that bear an exchanged mark may have another tone, namely the one the tone rules give for the new mark. Soundex lines, and roman lines of words without other text, stay the same.", "quantifier": "all words, all sets of exchanged marks, all dictionaries and breaks", "why_tests_cant": "A relation between the results for two words, for every word and mark; the tests fix single words.", "anchors": ["parser/parser.cxx:ParseThCons", "parser/parser.cxx:ParseSaraE", "parser/parser.cxx:ParseOtherLV", "sylstring/sylcomp.cxx"]}
{"id": "C82", "title": "It does not matter which letter is silenced", "statement": "If a consonant under thanthakhat is exchanged for another consonant (same dictionary words found, none of them beginning with a silenced letter, no word break before thanthakhat), the new word is parsed if the old one is, and both have the same pronunciations.", "quantifier": "all words, all sets of exchanged silenced letters, all dictionaries and breaks", "why_tests_cant": "A relation between the results for two words, for every word and letter; a silenced letter is looked at by several rules (clusters, รร, finals after ฤ) before it is skipped.", "anchors": ["parser/parser.cxx:MatchInitCons", "parser/parser.cxx:MatchKaranSimple,MatchKaranComplex", "parser/parser.cxx:EatEndConsSimple,EatEndConsComplex", "parser/parser.cxx:ParseSaraE"]}
{"id": "C83", "title": "No assertion ever fails", "statement": "A program configured with --enable-debug (assertions evaluated) never aborts: for every word, dictionary and set of word breaks, Parser::ParseWord does exactly what it does without assertions, and so does every call of the Thai output.", "quantifier": "all words, all dictionaries, all sets of breaks; all syllables for the output", "why_tests_cant": "Assertions sit in every rule of the parser; whether one can fail depends on every way to reach a rule, for every text and break.", "anchors": ["configure.ac:--enable-debug", "parser/parser.cxx:MatchInitCons", "parser/parser.cxx:ParseOtherLV", "parser/parser.cxx:ParseThCons", "thortho/thcons.cxx", "output/sylout-thai.cxx"]}
{"id": "C84", "title": "No iterator is used after its element is erased", "statement": "The loops that insert or erase while they iterate (DAG operations, FracDAG::mergeSingles and mergeParallels, PronunChain::mergeSingles, PronunFrac::operator+=, StatePool::add, the stretching of edges over a period) never dereference, increment, compare or erase an iterator whose element is gone, and compute what the same operations on plain lists compute.", "quantifier": "all DAGs built by DAG operations, all chains, fractions, pools, positions, and all identities of elements", "why_tests_cant": "Use of an invalidated iterator usually goes unnoticed, and which element an erase removes depends on the whole DAG (equal labels, loops, parallel edges).", "anchors": ["lattice/dag.inl:removeEdge,removeDirectEdges", "lattice/pron-dag.cxx:FracDAG::mergeSingles,mergeParallels", "lattice/lattice.cxx:PronunChain::mergeSingles", "parser/parser.cxx:StatePool::add", "parser/parser.cxx:1909-1916"]}
{"id": "C85", "title": "Only well-formed spellings are read", "statement": "If a word has a pronunciation, then its Thai characters stand where Thai orthography allows them: vowel signs, tone marks, maitaikhu and thanthakhat follow a letter or sign they can follow, in this order; a leading vowel is followed by a consonant; ั, ็ and leading vowels do not end the word. Two characters stand side by side in some word that is read if and only if they are a pair of a small table. In particular a tone mark typed before a vowel sign makes a word unreadable.", "quantifier": "all words, all dictionaries and word breaks; all pairs of Thai characters", "why_tests_cant": "That a sequence of characters is never accepted in any context cannot be shown by examples.", "anchors": ["parser/parser.cxx:ParseThCons,ParseSaraE,ParseOtherLV,ParseRuLu", "parser/parser.cxx:MatchKaranSimple,MatchKaranIU,MatchKaranComplex,EatEndConsSimple,EatEndConsComplex", "data/ex-*.tsv"]}
{"id": "C86", "title": "The consonants heard are written, in the same order", "statement": "Every pronunciation that the program lists is heard from the letters of the word: the initial consonant of each syllable, the second one right after it, and the final one after these (or from ำ, เ-า, ไ, ใ), in the order of the syllables, each letter once, except that a final consonant can be the first letter of the next syllable. So the initial sounds, together with characters other than Thai letters, are a subsequence of the characters of the word, and no pronunciation has more syllables than the word has consonants. With the shipped dictionary the only irregular sounds are ซ for ทร and ด for ฑ.", "quantifier": "all words, word breaks and listed pronunciations; without dictionary, with the shipped one, and with every dictionary whose entries have the property", "why_tests_cant": "Pronunciations are recombined from syllables of different readings through shared nodes, and no set of examples excludes one that loses, repeats or exchanges a consonant.", "anchors": ["parser/parser.cxx:ParseU16", "parser/parser.cxx:MatchInitCons,ParseThCons,ParseSaraE,ParseOtherLV,ParseRuLu", "lattice/pron-dag.cxx", "data/ex-*.tsv"]}
{"id": "C87", "title": "No consonant is dropped", "statement": "The syllables of every pronunciation that the program lists share out the word from its beginning to its end, and every consonant of the word is heard in the syllable it belongs to, as its initial, second or final consonant, except where it is silent by rule: it is silenced by thanthakhat (on it, on the next letter or on its vowel sign ◌ิ or ◌ุ), it is ห before a sonorant, ร after an initial จ ซ ศ ส or after a final ก ค ช ต ท, one of รร, or อ, ว, ย before the final as part of a vowel that is written with it. So a consonant other than ห ร อ ว ย that is not silenced is heard in every pronunciation, and without thanthakhat there are at most three such consonants to a syllable. Letters in a word of the exception dictionary are exempt.", "quantifier": "all words, word breaks and listed pronunciations; without dictionary, with the shipped one, and with every dictionary whose syllables end in their words", "why_tests_cant": "A letter that is skipped in one of many recombined readings is not seen in a comparison of the expected pronunciations, and the contexts are unbounded.", "anchors": ["parser/parser.cxx:ParseU16", "parser/parser.cxx:ParseThCons,ParseSaraE,ParseOtherLV,ParseRuLu", "parser/parser.cxx:MatchKaranSimple,MatchKaranIU,MatchKaranComplex,EatEndConsSimple,EatEndConsComplex", "lattice/pron-dag.cxx"]}
{"id": "C88", "title": "Vowel and tone are those that are written", "statement": "The syllables of every pronunciation that the program lists share out the word from its beginning to its end. The vowel of a syllable is one that is spelled with just the vowel signs that stand in its part of the word (with อ, ว, ย, ร or ฤ where the spelling needs such a letter); its tone is what the tone rules give for the tone mark in its part, the class of its initial consonant (or, before a sonorant, of the consonant that leads it), its vowel and its final. No sign is without effect except ◌ิ and ◌ุ that are silenced or stand on a final ฒ ต ธ ร. Without dictionary, every other vowel sign gives a vowel written with it and every tone mark a tone: ◌๊ and ◌๋ at face value, ◌่ low or falling, ◌้ falling or high. Syllables of a word in the exception dictionary are exempt.", "quantifier": "all words, word breaks and listed pronunciations; without dictionary, with the shipped one, and with every dictionary whose syllables begin and end in their words", "why_tests_cant": "The number of spellings times onsets, marks, finals and silenced letters is large and the contexts unbounded; a sign that is lost in one of many recombined readings is easily overlooked.", "anchors": ["parser/parser.cxx:ParseU16", "parser/parser.cxx:ParseThCons,ParseSaraE,ParseOtherLV,ParseRuLu", "parser/parser.cxx:MatchInitCons", "thortho/thcons.cxx:ToneFromWritten", "lattice/pron-dag.cxx"]}
{"id": "C89", "title": "Letters that sound alike are read alike", "statement": "Two texts that differ only in letters of the same sound, class and final consonant (ข ฃ; ค ฅ ฆ; ช ฌ; ฎ ด; ฏ ต; ฐ ถ; ฑ ฒ ท ธ; ณ น; พ ภ; ล ฬ; ศ ษ ส) are both parsed or both not, and have the same pronunciations, if the dictionary finds the same words in both and the word breaks are the same. (As it stands this is false: ตรา has a cluster, ฏรา has not. It holds outside a table of fourteen special places, such as a letter before ร, and every entry of the table is needed.)", "quantifier": "all pairs of texts of any length, any number of exchanged letters, all dictionaries and word breaks", "why_tests_cant": "Pairs of words that differ in such letters are rarely both in a word list; the exchange can be made in any number of places of words of any length, and each rule of the parser has its own list of letters.", "anchors": ["parser/parser.cxx:MatchInitCons", "parser/parser.cxx:EatEndConsComplex", "parser/parser.cxx:ParseRuLu", "parser/parser.cxx:FindAbbr", "thortho/thcons.cxx:InitConsSound,InitConsClass,EndConsClass"]}
{"id": "C90", "title": "What a run prints, from the command line to the last byte", "statement": "A run with accepted options prints, for each word in order, the word and a colon, and then in each format asked for all pronunciations that the rules of reading give for the word with the dictionary and the word breaks, each once and no others: one line for each with the syllables in the notation, or a JSON array of them, or a grouped JSON array whose choices are just these. The exit status is 0. If a word is not valid UTF-8 or a partial reading of it comes to a leading vowel at its very end, the blocks of the words before it and its heading are printed, and the run ends with range_error or out_of_range; plain JSON of a word without pronunciation is undefined behaviour. In particular: with the dictionary made from the shipped sources, no options, and UTF-8 words that do not end with แ โ ใ ไ, the run succeeds and prints Thai, romanized and phonetic lines of just the pronunciations.", "quantifier": "all argument lists with accepted options, all standard inputs, dictionaries with well-formed data, word breakers whose breaks lie in the text, all numbers and lengths of words", "why_tests_cant": "It joins every part of the program (options, decoding, dictionary file, parser, DAG, outputs, streams, exit status) for inputs of any size; a test compares single outputs with single expectations and cannot tell that no pronunciation is missing or superfluous.", "anchors": ["thpronun/thpronun.cxx:main", "thpronun/thpronun.cxx:DoParse", "parser/parser.cxx:Parser::parseWord", "lattice/pron-dag.cxx", "output/*.cxx", "dict/gen-lookup-dict.c"]}
{"id": "C91", "title": "ใ and ไ are read alike", "statement": "Two texts that differ only in the signs ใ and ไ are both parsed or both not, and have the same pronunciations, if the dictionary finds the same words in both and the word breaks are the same. (As it stands this is false: ไทย may be read with a silent ย, ใทย may not. Every pronunciation with ใ is one with ไ; and both have the same ones unless ย stands two to four characters after an exchanged sign.)", "quantifier": "all pairs of texts of any length, any number of exchanged signs, all dictionaries and word breaks", "why_tests_cant": "The twenty words with ใ are never spelled with ไ in a word list, so no list contains such a pair; the claim is about all texts, with any number of exchanges.", "anchors": ["parser/parser.cxx:ParseOtherLV", "parser/parser.cxx:EatEndConsComplex", "parser/parser.cxx:ParseU16"]}
{"id": "C92", "title": "ฤา is read as ฤๅ", "statement": "Two texts that differ only in the sign of length directly after ฤ or ฦ (lakkhangyao ๅ, or SARA AA า in its place) either both fail with the same error, or are both parsed and have the same pronunciations, if the dictionary finds the same words in both and the word breaks are the same.", "quantifier": "all pairs of texts of any length, any number of exchanged signs anywhere in the text, all dictionaries and word breaks", "why_tests_cant": "The source only says that ฤา is also allowed; a test shows it for the words in it. That no other rule (the vowel า itself, the onset with ฤ, the linking finals) ever tells the two signs apart in that place is a claim about all texts.", "anchors": ["parser/parser.cxx:MatchInitCons", "parser/parser.cxx:ParseRuLu", "parser/parser.cxx:ParseU16"]}
{"id": "C93", "title": "Grouping never makes the output longer", "statement": "For every parsed word the grouped form has at most as many lines, and at most as many syllables in all, as the plain list of pronunciations; every choice of alternatives in it gives a pronunciation of the list (with the same syllable positions), and two different choices never give the same one.", "quantifier": "all words of any length, all dictionaries and word breaks; more generally all acyclic graphs whose labels end where their edges end", "why_tests_cant": "A test compares the two outputs for the words in it. Grouping removes nodes and joins edges in an order that depends on the graph, and overlapping groups could denote the same pronunciation many times over in some graph; that this never happens is a claim about all graphs.", "anchors": ["lattice/pron-dag.cxx:mergeSingles", "lattice/pron-dag.cxx:mergeParallels", "lattice/pron-dag.cxx:lattice", "lattice/lattice.cxx:mergeSingles"]}
{"id": "C94", "title": "The help text describes the options", "statement": "The single-letter options that the help text describes are exactly those the program knows; those described with an argument are exactly those refused without one; the long names in it are exactly those known and do what the letter beside them does; the options under \"Output notations\" are exactly those that select a notation, and those under \"Output structures\" exactly those that make all outputs JSON.", "quantifier": "all option letters and long names, behind all accepted arguments, all program names without line break", "why_tests_cant": "A test can try the options its author knows; that no other letter or name is accepted in silence, or described and refused, is a claim about all of them.", "anchors": ["thpronun/thpronun.cxx:Usage", "thpronun/thpronun.cxx:main"]}
{"id": "C95", "title": "The grouped form has polynomially many lines", "statement": "For some polynomial P, the grouped form of a parsed word (FracDAG::lattice of fracDAG of the result of ParseWord, as printed with -g) has at most P(n) lines for every word of n characters.", "quantifier": "all words, no dictionary", "why_tests_cant": "A growth rate concerns all lengths at once. Grouping is meant to keep the output short, and does so on every word one is likely to test.", "anchors": ["lattice/pron-dag.cxx:mergeSingles", "lattice/pron-dag.cxx:mergeParallels", "lattice/pron-dag.cxx:lattice"]}
{"id": "C96", "title": "Text other than Thai is opaque", "statement": "Let two words have the same length and differ only at positions where both have a character that is no Thai letter or sign, no period and no space, and let the word breaks be the same. Then ParseWord fails with the same error on both, or parses both, and DAGSylStrings lists the same pronunciations for both, except that literal syllables show the characters of the respective word. Nothing is assumed about which words the dictionary has.", "quantifier": "all pairs of such words, all well-formed dictionaries", "why_tests_cant": "There are about 65000 such characters for every position. The parser looks back and ahead over token boundaries (abbreviations, leading vowels before a break, dictionary words), and the space is an exception.", "anchors": ["parser/parser.cxx:ParseU16", "parser/parser.cxx:FindAbbr"]}
{"id": "C97", "title": "A dictionary entry decides how its word is read", "statement": "If gen-lookup-dict makes a dictionary from entry lines, one of them for the word w with well-formed data, and the parser has loaded it, then ParseWord (w), without word segmentation, lists exactly the pronunciations of that entry. In particular this holds for every word of the shipped exception data.", "quantifier": "all dictionaries of well-formed entries, all words in them", "why_tests_cant": "It relates the alphabet of the trie, the tokenizer, the matching of all entries against each other and the merging of readings; the tests look up a few words of the shipped data. The entries that fail are accepted without a message.", "anchors": ["parser/parser.cxx:FindExceptions", "parser/parser.cxx:ParseU16", "dict/gen-lookup-dict.c:main"]}
{"id": "C98", "title": "A syllable takes at most twelve letters", "statement": "Every pronunciation listed for a word with n Thai letters and signs (periods and other characters not counted) has at least n/12 syllables, without dictionary, with the shipped dictionary, and with every dictionary whose readings have no wider syllables; with syllables of up to N letters in the dictionary at least n/max(12,N). Twelve is attained: for every k there is a word of 12k letters with a pronunciation of k syllables.", "quantifier": "all words, all pronunciations listed for them, all word breaks, all such dictionaries, all k", "why_tests_cant": "It bounds what any branch of the syllable grammar can consume, over all spellings, and what any recombination of readings in the graph can do; the widest spelling is not a word of the language.", "anchors": ["parser/parser.cxx:Parser::parseWord", "parser/parser.cxx:ParseSaraE,ParseThCons,ParseOtherLV", "parser/parser.cxx:EatEndConsComplex,MatchKaranComplex", "data/"]}
{"id": "C99", "title": "A reading depends on four characters ahead", "statement": "How a text is read up to a position depends only on the text up to four characters behind that position, or up to as many as the longest dictionary word has if that is more (eleven for the shipped dictionary): two texts that begin alike, with the same word breaks there, have the same partial readings up to there. Hence for two such words whose readings do not mix (as in C54): if a pronunciation of each goes through the same node that far before the end of the common part, then the first part of the one followed by the rest of the other is listed for the other word. Three characters are not enough.", "quantifier": "all pairs of texts with a common beginning, all dictionaries, all word breaks, all partial readings and all listed pronunciations", "why_tests_cant": "It is about how far any branch of the grammar, the abbreviation test and the dictionary lookup can look ahead, for all continuations of a text.", "anchors": ["parser/parser.cxx:Parser::parseWord", "parser/parser.cxx:ParseThCons,ParseSaraE,ParseOtherLV", "parser/parser.cxx:FindAbbr", "parser/parser.cxx:IsSylStart"]}

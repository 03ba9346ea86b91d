import Verif.Props.Abbr
import Verif.Props.Adjacent
import Verif.Props.Again
import Verif.Props.AiVowel
import Verif.Props.Alike
import Verif.Props.AnyDict
import Verif.Props.Assert
import Verif.Props.Breaks
import Verif.Props.ChainEnds
import Verif.Props.Chains
import Verif.Props.Cli
import Verif.Props.Compact
import Verif.Props.Concat
import Verif.Props.Count
import Verif.Props.Dag
import Verif.Props.Desc
import Verif.Props.Dict
import Verif.Props.EndPos
import Verif.Props.Entry
import Verif.Props.Failing
import Verif.Props.Frac
import Verif.Props.GenMain
import Verif.Props.GenText
import Verif.Props.GroupList
import Verif.Props.Heard
import Verif.Props.Help
import Verif.Props.Int
import Verif.Props.Iter
import Verif.Props.Json
import Verif.Props.Lattice
import Verif.Props.Letters
import Verif.Props.Lines
import Verif.Props.Listed
import Verif.Props.ListedEach
import Verif.Props.Mute
import Verif.Props.Near
import Verif.Props.Notation
import Verif.Props.Opaque
import Verif.Props.Order
import Verif.Props.Ordinary
import Verif.Props.Output
import Verif.Props.Overflow
import Verif.Props.Parser
import Verif.Props.PoolShape
import Verif.Props.Printed
import Verif.Props.Program
import Verif.Props.Readings
import Verif.Props.Resource
import Verif.Props.Respell
import Verif.Props.Retone
import Verif.Props.Ring
import Verif.Props.RuLong
import Verif.Props.SameSound
import Verif.Props.Shipped
import Verif.Props.Size
import Verif.Props.SoftEach
import Verif.Props.Source
import Verif.Props.Spelling
import Verif.Props.Split
import Verif.Props.States
import Verif.Props.Streams
import Verif.Props.Syl
import Verif.Props.Tone
import Verif.Props.Twice
import Verif.Props.Unheard
import Verif.Props.Unusable
import Verif.Props.Used
import Verif.Props.Voiced
import Verif.Props.Wide
import Verif.Props.Words
import Verif.Props.Work
import Lean.Util.CollectAxioms
import Lean.Elab.Command

/-! # Axioms of every property theorem (generated by tools/manifest.py)

`#axioms_ok t` fails unless `t` depends on no axioms but `propext`, `Classical.choice` and
`Quot.sound`. -/

open Lean Elab Command in
elab "#axioms_ok " id:ident : command => do
  let n ← liftCoreM <| realizeGlobalConstNoOverloadWithInfo id
  let axs ← liftCoreM <| collectAxioms n
  for a in axs do
    unless a == ``propext || a == ``Classical.choice || a == ``Quot.sound do
      throwError "{n} depends on {a}"

#axioms_ok Thpronun.C01_tone_table
#axioms_ok Thpronun.C01_unlisted
#axioms_ok Thpronun.C01_valid
#axioms_ok Thpronun.C02_class
#axioms_ok Thpronun.C02_class_conv
#axioms_ok Thpronun.C02_sound
#axioms_ok Thpronun.C02_sound_conv
#axioms_ok Thpronun.C02_mid_sounds
#axioms_ok Thpronun.C02_final
#axioms_ok Thpronun.C02_final_conv
#axioms_ok Thpronun.C02_domain
#axioms_ok Thpronun.C03_irrefl
#axioms_ok Thpronun.C03_trans
#axioms_ok Thpronun.C03_operators
#axioms_ok Thpronun.C03_incomparable_iff
#axioms_ok Thpronun.C03_weak
#axioms_ok Thpronun.C04_equivalence
#axioms_ok Thpronun.C04_ignores_endPos
#axioms_ok Thpronun.C04_eq_iff
#axioms_ok Thpronun.C04_trichotomy
#axioms_ok Thpronun.C04_endPos_needed
#axioms_ok Thpronun.C05_lex
#axioms_ok Thpronun.C05_order
#axioms_ok Thpronun.C05_total
#axioms_ok Thpronun.C05_eq
#axioms_ok Thpronun.C06_number
#axioms_ok Thpronun.C06_roundtrip
#axioms_ok Thpronun.C06_format
#axioms_ok Thpronun.C07_string
#axioms_ok Thpronun.C07_alternatives
#axioms_ok Thpronun.C08_exact
#axioms_ok Thpronun.C08_data
#axioms_ok Thpronun.C08_look
#axioms_ok Thpronun.C08_printable_exact
#axioms_ok Thpronun.C08_no_ub
#axioms_ok Thpronun.C08_accept_iff
#axioms_ok Thpronun.C08_short
#axioms_ok Thpronun.C08_printable_false
#axioms_ok Thpronun.C08_printable_partial
#axioms_ok Thpronun.C09_shift
#axioms_ok Thpronun.C09_compose
#axioms_ok Thpronun.C09_eq
#axioms_ok Thpronun.C09_nonneg_needed
#axioms_ok Thpronun.C10_sorted
#axioms_ok Thpronun.C11_contents
#axioms_ok Thpronun.C11_no_invention
#axioms_ok Thpronun.C11_unique_false
#axioms_ok Thpronun.C11_unique_partial
#axioms_ok Thpronun.C11_strict
#axioms_ok Thpronun.C11_nodup
#axioms_ok Thpronun.C11_order_false
#axioms_ok Thpronun.C12_chain
#axioms_ok Thpronun.C12_chain_merged
#axioms_ok Thpronun.C12_lattice
#axioms_ok Thpronun.C13_views
#axioms_ok Thpronun.C13_ranges
#axioms_ok Thpronun.C13_sorted
#axioms_ok Thpronun.C13_distinct
#axioms_ok Thpronun.C14_addEdge
#axioms_ok Thpronun.C14_isEdgeExist
#axioms_ok Thpronun.C14_removeEdge
#axioms_ok Thpronun.C14_removeDirectEdges
#axioms_ok Thpronun.C14_unionDAG
#axioms_ok Thpronun.C14_empty
#axioms_ok Thpronun.C14_outDegree
#axioms_ok Thpronun.C14_inDegree
#axioms_ok Thpronun.C15_listing
#axioms_ok Thpronun.C15_empty
#axioms_ok Thpronun.C16_ofStrings
#axioms_ok Thpronun.C16_rebuild
#axioms_ok Thpronun.C17_same_readings
#axioms_ok Thpronun.C17_root_needed
#axioms_ok Thpronun.C18_terminates
#axioms_ok Thpronun.C18_returns_partial
#axioms_ok Thpronun.C18_loop_false
#axioms_ok Thpronun.C18_no_parallel
#axioms_ok Thpronun.C18_ring
#axioms_ok Thpronun.C18_returns_endless
#axioms_ok Thpronun.C18_exact
#axioms_ok Thpronun.C18_between
#axioms_ok Thpronun.C19_false
#axioms_ok Thpronun.C19_endPos_partial
#axioms_ok Thpronun.C20_string
#axioms_ok Thpronun.C20_list
#axioms_ok Thpronun.C20_dag
#axioms_ok Thpronun.C21_exact
#axioms_ok Thpronun.C21_word
#axioms_ok Thpronun.C21_json_partial
#axioms_ok Thpronun.C21_safe
#axioms_ok Thpronun.C21_dag_partial
#axioms_ok Thpronun.C21_quote_false
#axioms_ok Thpronun.C21_injection_false
#axioms_ok Thpronun.C22_exact
#axioms_ok Thpronun.C22_word
#axioms_ok Thpronun.C22_lattice_partial
#axioms_ok Thpronun.C22_dag_partial
#axioms_ok Thpronun.C22_empty
#axioms_ok Thpronun.C22_quote_false
#axioms_ok Thpronun.C23_json_false
#axioms_ok Thpronun.C23_others_partial
#axioms_ok Thpronun.C23_empty_partial
#axioms_ok Thpronun.C24_prints
#axioms_ok Thpronun.C24_defined
#axioms_ok Thpronun.C24_raw_iff
#axioms_ok Thpronun.C24_phonetic_iff
#axioms_ok Thpronun.C24_roman_iff
#axioms_ok Thpronun.C24_soundex_iff
#axioms_ok Thpronun.C24_thai_iff
#axioms_ok Thpronun.C25_letters
#axioms_ok Thpronun.C25_length
#axioms_ok Thpronun.C25_iff
#axioms_ok Thpronun.C25_separate
#axioms_ok Thpronun.C26_letters
#axioms_ok Thpronun.C26_unique
#axioms_ok Thpronun.C26_iff
#axioms_ok Thpronun.C26_injective
#axioms_ok Thpronun.C26_silent
#axioms_ok Thpronun.C27_onset
#axioms_ok Thpronun.C27_open
#axioms_ok Thpronun.C27_closed
#axioms_ok Thpronun.C27_syllable
#axioms_ok Thpronun.C27_hyphen_partial
#axioms_ok Thpronun.C27_exact
#axioms_ok Thpronun.C27_hyphen_false
#axioms_ok Thpronun.C27_leading_false
#axioms_ok Thpronun.C27_capital
#axioms_ok Thpronun.C27_dag
#axioms_ok Thpronun.C28_tone
#axioms_ok Thpronun.C28_dead_false
#axioms_ok Thpronun.C28_exact
#axioms_ok Thpronun.C29_roundtrip
#axioms_ok Thpronun.C29_bytes
#axioms_ok Thpronun.C30_bank
#axioms_ok Thpronun.C30_earlier
#axioms_ok Thpronun.C31_lookup
#axioms_ok Thpronun.C31_any_file
#axioms_ok Thpronun.C31_file
#axioms_ok Thpronun.C32_false
#axioms_ok Thpronun.C32_long_false
#axioms_ok Thpronun.C32_partial
#axioms_ok Thpronun.C32_exact
#axioms_ok Thpronun.C32_whole
#axioms_ok Thpronun.C32_defined
#axioms_ok Thpronun.C32_nul
#axioms_ok Thpronun.C32_any
#axioms_ok Thpronun.C33_exact
#axioms_ok Thpronun.C33_false
#axioms_ok Thpronun.C33_partial
#axioms_ok Thpronun.C33_nomatch
#axioms_ok Thpronun.C34_decode
#axioms_ok Thpronun.C34_exact
#axioms_ok Thpronun.C34_stray
#axioms_ok Thpronun.C34_truncated
#axioms_ok Thpronun.C34_suffix
#axioms_ok Thpronun.C34_word
#axioms_ok Thpronun.C34_overlong
#axioms_ok Thpronun.C35_partial
#axioms_ok Thpronun.C35_exact
#axioms_ok Thpronun.C35_false
#axioms_ok Thpronun.C36_parse
#axioms_ok Thpronun.C36_terminates
#axioms_ok Thpronun.C37_exact
#axioms_ok Thpronun.C37_ok
#axioms_ok Thpronun.C37_word
#axioms_ok Thpronun.C37_encoding
#axioms_ok Thpronun.C37_false
#axioms_ok Thpronun.C37_partial
#axioms_ok Thpronun.C38_edges
#axioms_ok Thpronun.C38_acyclic
#axioms_ok Thpronun.C38_paths
#axioms_ok Thpronun.C38_listing
#axioms_ok Thpronun.C38_nonempty
#axioms_ok Thpronun.C39_labels
#axioms_ok Thpronun.C39_prints
#axioms_ok Thpronun.C39_delimited
#axioms_ok Thpronun.C39_roman
#axioms_ok Thpronun.C39_json
#axioms_ok Thpronun.C40_false
#axioms_ok Thpronun.C40_plain
#axioms_ok Thpronun.C40_empty
#axioms_ok Thpronun.C40_partial
#axioms_ok Thpronun.C41_false
#axioms_ok Thpronun.C41_dot_false
#axioms_ok Thpronun.C41_partial
#axioms_ok Thpronun.C41_clean
#axioms_ok Thpronun.C42_steps
#axioms_ok Thpronun.C42_start
#axioms_ok Thpronun.C42_local
#axioms_ok Thpronun.C42_nomatch
#axioms_ok Thpronun.C42_word
#axioms_ok Thpronun.C42_single
#axioms_ok Thpronun.C42_shipped
#axioms_ok Thpronun.C43_edges
#axioms_ok Thpronun.C43_listed
#axioms_ok Thpronun.C43_forward
#axioms_ok Thpronun.C44_injective
#axioms_ok Thpronun.C44_sharp
#axioms_ok Thpronun.C44_negative
#axioms_ok Thpronun.C44_shift
#axioms_ok Thpronun.C44_grammar
#axioms_ok Thpronun.C44_result
#axioms_ok Thpronun.C44_shipped
#axioms_ok Thpronun.C45_add
#axioms_ok Thpronun.C45_lay
#axioms_ok Thpronun.C45_exact
#axioms_ok Thpronun.C45_alternate
#axioms_ok Thpronun.C45_unique
#axioms_ok Thpronun.C45_min
#axioms_ok Thpronun.C45_lossless
#axioms_ok Thpronun.C45_sound
#axioms_ok Thpronun.C45_false
#axioms_ok Thpronun.C45_partial
#axioms_ok Thpronun.C46_step
#axioms_ok Thpronun.C46_names
#axioms_ok Thpronun.C46_word
#axioms_ok Thpronun.C47_simple
#axioms_ok Thpronun.C47_iu
#axioms_ok Thpronun.C47_complex
#axioms_ok Thpronun.C47_bounds
#axioms_ok Thpronun.C48_file
#axioms_ok Thpronun.C48_newline
#axioms_ok Thpronun.C48_lines
#axioms_ok Thpronun.C48_distinct
#axioms_ok Thpronun.C48_readings
#axioms_ok Thpronun.C48_good
#axioms_ok Thpronun.C48_found
#axioms_ok Thpronun.C48_dict
#axioms_ok Thpronun.C49_grammar
#axioms_ok Thpronun.C49_step
#axioms_ok Thpronun.C49_open
#axioms_ok Thpronun.C49_closed
#axioms_ok Thpronun.C49_final_ro
#axioms_ok Thpronun.C50_exact
#axioms_ok Thpronun.C50_order
#axioms_ok Thpronun.C50_notation
#axioms_ok Thpronun.C50_json
#axioms_ok Thpronun.C51_false
#axioms_ok Thpronun.C51_ub_false
#axioms_ok Thpronun.C51_other_false
#axioms_ok Thpronun.C51_partial
#axioms_ok Thpronun.C51_ub
#axioms_ok Thpronun.C52_words
#axioms_ok Thpronun.C52_output
#axioms_ok Thpronun.C52_lines
#axioms_ok Thpronun.C53_bytes
#axioms_ok Thpronun.C53_utf16
#axioms_ok Thpronun.C53_printed
#axioms_ok Thpronun.C54_exact
#axioms_ok Thpronun.C54_unmixed
#axioms_ok Thpronun.C54_sparse
#axioms_ok Thpronun.C54_false_pre
#axioms_ok Thpronun.C54_each
#axioms_ok Thpronun.C54_false
#axioms_ok Thpronun.C54_partial
#axioms_ok Thpronun.C55_json_false
#axioms_ok Thpronun.C55_noreading_false
#axioms_ok Thpronun.C55_throw_false
#axioms_ok Thpronun.C55_partial
#axioms_ok Thpronun.C55_exact
#axioms_ok Thpronun.C55_encoding
#axioms_ok Thpronun.C56_partial
#axioms_ok Thpronun.C56_exact
#axioms_ok Thpronun.C56_false
#axioms_ok Thpronun.C57_within
#axioms_ok Thpronun.C57_exp
#axioms_ok Thpronun.C57_false
#axioms_ok Thpronun.C57_partial
#axioms_ok Thpronun.C57_upper
#axioms_ok Thpronun.C58_status
#axioms_ok Thpronun.C58_normal
#axioms_ok Thpronun.C58_broken
#axioms_ok Thpronun.C58_stderr
#axioms_ok Thpronun.C58_stop
#axioms_ok Thpronun.C59_false
#axioms_ok Thpronun.C59_same_false
#axioms_ok Thpronun.C59_disk_false
#axioms_ok Thpronun.C59_partial
#axioms_ok Thpronun.C59_others
#axioms_ok Thpronun.C59_pipeline
#axioms_ok Thpronun.C60_exact
#axioms_ok Thpronun.C60_size_false
#axioms_ok Thpronun.C60_cut_false
#axioms_ok Thpronun.C60_partial
#axioms_ok Thpronun.C60_messages
#axioms_ok Thpronun.C61_copy_false
#axioms_ok Thpronun.C61_leak_false
#axioms_ok Thpronun.C61_partial
#axioms_ok Thpronun.C61_parser
#axioms_ok Thpronun.C61_same_result
#axioms_ok Thpronun.C62_empty
#axioms_ok Thpronun.C62_addEdge
#axioms_ok Thpronun.C62_removeEdge
#axioms_ok Thpronun.C62_removeDirectEdges
#axioms_ok Thpronun.C62_unionDAG
#axioms_ok Thpronun.C62_exists
#axioms_ok Thpronun.C62_listing
#axioms_ok Thpronun.C63_false
#axioms_ok Thpronun.C63_readings
#axioms_ok Thpronun.C63_listed
#axioms_ok Thpronun.C63_partial
#axioms_ok Thpronun.C63_lines
#axioms_ok Thpronun.C63_printed
#axioms_ok Thpronun.C64_partial
#axioms_ok Thpronun.C64_false_entry
#axioms_ok Thpronun.C64_false_long
#axioms_ok Thpronun.C64_same
#axioms_ok Thpronun.C64_exact
#axioms_ok Thpronun.C64_ok
#axioms_ok Thpronun.C65_partial
#axioms_ok Thpronun.C65_raw
#axioms_ok Thpronun.C65_false
#axioms_ok Thpronun.C66_false
#axioms_ok Thpronun.C66_readings
#axioms_ok Thpronun.C66_partial
#axioms_ok Thpronun.C66_each
#axioms_ok Thpronun.C67_exact
#axioms_ok Thpronun.C67_partial
#axioms_ok Thpronun.C67_word
#axioms_ok Thpronun.C67_dots_false
#axioms_ok Thpronun.C67_false
#axioms_ok Thpronun.C68_exact
#axioms_ok Thpronun.C68_regular
#axioms_ok Thpronun.C68_respellable
#axioms_ok Thpronun.C68_word
#axioms_ok Thpronun.C68_data
#axioms_ok Thpronun.C68_data_false
#axioms_ok Thpronun.C68_shipped
#axioms_ok Thpronun.C68_needed
#axioms_ok Thpronun.C69_edge
#axioms_ok Thpronun.C69_paced
#axioms_ok Thpronun.C69_count
#axioms_ok Thpronun.C69_twice
#axioms_ok Thpronun.C69_data
#axioms_ok Thpronun.C69_needed
#axioms_ok Thpronun.C70_rebuild
#axioms_ok Thpronun.C70_entry
#axioms_ok Thpronun.C70_file
#axioms_ok Thpronun.C71_delim
#axioms_ok Thpronun.C71_raw
#axioms_ok Thpronun.C71_phonetic_partial
#axioms_ok Thpronun.C71_phonetic_false
#axioms_ok Thpronun.C71_literal_false
#axioms_ok Thpronun.C71_roman_false
#axioms_ok Thpronun.C71_roman_partial
#axioms_ok Thpronun.C71_roman_each
#axioms_ok Thpronun.C72_thai
#axioms_ok Thpronun.C72_thai_same
#axioms_ok Thpronun.C72_roman
#axioms_ok Thpronun.C72_roman_same
#axioms_ok Thpronun.C72_thai_false
#axioms_ok Thpronun.C72_roman_false
#axioms_ok Thpronun.C72_thai_partial
#axioms_ok Thpronun.C72_thai_one
#axioms_ok Thpronun.C72_line
#axioms_ok Thpronun.C72_roman_line
#axioms_ok Thpronun.C72_word
#axioms_ok Thpronun.C73_parse
#axioms_ok Thpronun.C73_run
#axioms_ok Thpronun.C73_order
#axioms_ok Thpronun.C73_replaced
#axioms_ok Thpronun.C73_absent
#axioms_ok Thpronun.C73_programs
#axioms_ok Thpronun.C74_false
#axioms_ok Thpronun.C74_short_false
#axioms_ok Thpronun.C74_exact
#axioms_ok Thpronun.C74_ub
#axioms_ok Thpronun.C74_unmet
#axioms_ok Thpronun.C74_partial
#axioms_ok Thpronun.C74_run
#axioms_ok Thpronun.C74_map
#axioms_ok Thpronun.C75_edges
#axioms_ok Thpronun.C75_space
#axioms_ok Thpronun.C75_linear
#axioms_ok Thpronun.C75_data
#axioms_ok Thpronun.C76_upper
#axioms_ok Thpronun.C76_paced
#axioms_ok Thpronun.C76_base
#axioms_ok Thpronun.C76_exp
#axioms_ok Thpronun.C76_false
#axioms_ok Thpronun.C76_partial
#axioms_ok Thpronun.C77_usage
#axioms_ok Thpronun.C77_input
#axioms_ok Thpronun.C77_output
#axioms_ok Thpronun.C77_exact
#axioms_ok Thpronun.C77_silent
#axioms_ok Thpronun.C77_status_false
#axioms_ok Thpronun.C77_false
#axioms_ok Thpronun.C77_long_false
#axioms_ok Thpronun.C77_partial
#axioms_ok Thpronun.C78_value
#axioms_ok Thpronun.C78_append
#axioms_ok Thpronun.C78_edges
#axioms_ok Thpronun.C78_forward
#axioms_ok Thpronun.C78_shift
#axioms_ok Thpronun.C78_shift_empty
#axioms_ok Thpronun.C78_frac
#axioms_ok Thpronun.C78_listing
#axioms_ok Thpronun.C79_exact
#axioms_ok Thpronun.C79_partial
#axioms_ok Thpronun.C79_listing
#axioms_ok Thpronun.C79_false
#axioms_ok Thpronun.C79_lost_false
#axioms_ok Thpronun.C80_exact
#axioms_ok Thpronun.C80_false
#axioms_ok Thpronun.C80_partial
#axioms_ok Thpronun.C81_readings
#axioms_ok Thpronun.C81_listed
#axioms_ok Thpronun.C81_lines
#axioms_ok Thpronun.C82_false
#axioms_ok Thpronun.C82_each
#axioms_ok Thpronun.C82_readings_partial
#axioms_ok Thpronun.C82_partial
#axioms_ok Thpronun.C83_false
#axioms_ok Thpronun.C83_same
#axioms_ok Thpronun.C83_exact
#axioms_ok Thpronun.C83_partial
#axioms_ok Thpronun.C83_thai
#axioms_ok Thpronun.C84_dag
#axioms_ok Thpronun.C84_alts
#axioms_ok Thpronun.C84_chain
#axioms_ok Thpronun.C84_pool
#axioms_ok Thpronun.C84_dot
#axioms_ok Thpronun.C84_exact
#axioms_ok Thpronun.C84_false
#axioms_ok Thpronun.C84_partial
#axioms_ok Thpronun.C84_word
#axioms_ok Thpronun.C84_ring
#axioms_ok Thpronun.C84_endless
#axioms_ok Thpronun.C85_sign
#axioms_ok Thpronun.C85_pair
#axioms_ok Thpronun.C85_last
#axioms_ok Thpronun.C85_exact
#axioms_ok Thpronun.C85_data
#axioms_ok Thpronun.C85_shipped
#axioms_ok Thpronun.C85_order
#axioms_ok Thpronun.C85_order_needed
#axioms_ok Thpronun.C86_written
#axioms_ok Thpronun.C86_order
#axioms_ok Thpronun.C86_count
#axioms_ok Thpronun.C86_plain
#axioms_ok Thpronun.C86_data
#axioms_ok Thpronun.C86_shipped
#axioms_ok Thpronun.C86_irregular
#axioms_ok Thpronun.C87_accounted
#axioms_ok Thpronun.C87_heard
#axioms_ok Thpronun.C87_plain
#axioms_ok Thpronun.C87_count
#axioms_ok Thpronun.C87_data
#axioms_ok Thpronun.C87_shipped
#axioms_ok Thpronun.C88_voiced
#axioms_ok Thpronun.C88_heard
#axioms_ok Thpronun.C88_marks
#axioms_ok Thpronun.C88_data
#axioms_ok Thpronun.C88_shipped
#axioms_ok Thpronun.C89_false
#axioms_ok Thpronun.C89_each
#axioms_ok Thpronun.C89_readings_partial
#axioms_ok Thpronun.C89_partial
#axioms_ok Thpronun.C90_run
#axioms_ok Thpronun.C90_usual
#axioms_ok Thpronun.C91_false
#axioms_ok Thpronun.C91_each
#axioms_ok Thpronun.C91_readings_partial
#axioms_ok Thpronun.C91_more
#axioms_ok Thpronun.C91_partial
#axioms_ok Thpronun.C92_readings
#axioms_ok Thpronun.C92
#axioms_ok Thpronun.C92_only
#axioms_ok Thpronun.C93_code
#axioms_ok Thpronun.C93_graph
#axioms_ok Thpronun.C93
#axioms_ok Thpronun.C93_lines
#axioms_ok Thpronun.C93_ends_needed
#axioms_ok Thpronun.C94_known
#axioms_ok Thpronun.C94_argument
#axioms_ok Thpronun.C94_long
#axioms_ok Thpronun.C94_sections
#axioms_ok Thpronun.C95_exp
#axioms_ok Thpronun.C95_false
#axioms_ok Thpronun.C95_partial
#axioms_ok Thpronun.C95_upper
#axioms_ok Thpronun.C96_readings
#axioms_ok Thpronun.C96
#axioms_ok Thpronun.C96_foreign
#axioms_ok Thpronun.C96_space
#axioms_ok Thpronun.C97_text
#axioms_ok Thpronun.C97_dead
#axioms_ok Thpronun.C97_signs
#axioms_ok Thpronun.C97_false
#axioms_ok Thpronun.C97_partial
#axioms_ok Thpronun.C97_one
#axioms_ok Thpronun.C97_short_false
#axioms_ok Thpronun.C97_shipped
#axioms_ok Thpronun.C97_shipped_false
#axioms_ok Thpronun.C98
#axioms_ok Thpronun.C98_data
#axioms_ok Thpronun.C98_tight
#axioms_ok Thpronun.C98_needed
#axioms_ok Thpronun.C99_readings
#axioms_ok Thpronun.C99
#axioms_ok Thpronun.C99_data
#axioms_ok Thpronun.C99_tight
#axioms_ok Thpronun.C99_needed

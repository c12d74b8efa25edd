# Axioms of the claimed theorems

Written by tools/axioms.py from the output of `#print axioms`.

## none (31)

* `Pvxs.Props.C04_status_nul_truncated`
* `Pvxs.Props.Tools.C106_interrupted`
* `Pvxs.Props.IocLife.C115_server_partial`
* `Pvxs.Props.IocLife.C115_server_empty`
* `Pvxs.Props.IocLife.C115_kept`
* `Pvxs.Props.Report.C119_channels_rx_false`
* `Pvxs.Props.Report.C119_client_creating`
* `Pvxs.Props.Report.C119_client_again`
* `Pvxs.Props.OutBuf.C121_fault`
* `Pvxs.Props.SigInt.C123_run_false`
* `Pvxs.Props.Indent.C125_detail_false`
* `Pvxs.Props.Sock.C126_self`
* `Pvxs.Props.CMon.C37_exceeds`
* `Pvxs.Props.Src.C40_throw_accept`
* `Pvxs.Props.Src.C40_throw_null`
* `Pvxs.Props.Cch.C44_closed`
* `Pvxs.Props.Txt.C50_null`
* `Pvxs.Props.Lg.C51_depends`
* `Pvxs.Props.Lg.C51_ignored`
* `Pvxs.Props.C56_skip_across_slices_wrong`
* `Pvxs.Props.CMon.C63_crash`
* `Pvxs.Props.CMon.C63_freed`
* `Pvxs.Props.RecPut.C76_lost`
* `Pvxs.Props.RecPut.C76_escapes`
* `Pvxs.Props.RecPut.C76_link`
* `Pvxs.Props.RecPut.C76_identity`
* `Pvxs.Props.ServerPV.C82_race`
* `Pvxs.Props.LinkConf.C89_short`
* `Pvxs.Props.Discover.C92_ping_second`
* `Pvxs.Props.FlowCtl.C93_suspends`
* `Pvxs.Props.GLoad.C95_shell_empty`

## propext (101)

* `Pvxs.Props.C02_host_independent`
* `Pvxs.Props.C02_host_independent_read`
* `Pvxs.Props.C03_null_string`
* `Pvxs.Props.C07_v6_mapped_changes_family`
* `Pvxs.Props.Mshim.C103_port`
* `Pvxs.Props.MonStat.C105_rest`
* `Pvxs.Props.MonStat.C105_count`
* `Pvxs.Props.MonStat.C105_stalls`
* `Pvxs.Props.MonStat.C105_misreported`
* `Pvxs.Props.MonStat.C105_reset`
* `Pvxs.Props.MonStat.C105_early`
* `Pvxs.Props.Tools.C106_done`
* `Pvxs.Props.Ifm.C107_wildcard`
* `Pvxs.Props.WQ.C110_second_interrupt`
* `Pvxs.Props.WQ.C110_none`
* `Pvxs.Props.TestCase.C113_once`
* `Pvxs.Props.TestCase.C113_silent`
* `Pvxs.Props.TestCase.C113_lost_silent`
* `Pvxs.Props.TestCase.C113_lost_assigned`
* `Pvxs.Props.TestCase.C113_throws_partial`
* `Pvxs.Props.TestCase.C113_alien`
* `Pvxs.Props.TestCase.C113_regex`
* `Pvxs.Props.IocLife.C115_commands`
* `Pvxs.Props.IocLife.C115_serves`
* `Pvxs.Props.IocLife.C115_silent`
* `Pvxs.Props.IocLife.C115_alive`
* `Pvxs.Props.IocLife.C115_again`
* `Pvxs.Props.IocLife.C115_off_false`
* `Pvxs.Props.Vct.C116_defaults`
* `Pvxs.Props.CliStat.C117_max_false`
* `Pvxs.Props.CliStat.C117_max_reset`
* `Pvxs.Props.Report.C119_rx_wraps`
* `Pvxs.Props.Timer.C120_freed_false`
* `Pvxs.Props.Timer.C120_throws`
* `Pvxs.Props.OutBuf.C121_skip_false`
* `Pvxs.Props.SigInt.C123_open_false`
* `Pvxs.Props.SigInt.C123_caused_false`
* `Pvxs.Props.SigInt.C123_run_partial`
* `Pvxs.Props.SigInt.C123_run_signal`
* `Pvxs.Props.SigInt.C123_run_forever`
* `Pvxs.Props.InstCount.C124_taken`
* `Pvxs.Props.Indent.C125_printed_false`
* `Pvxs.Props.Sock.C126_mcast_false`
* `Pvxs.Props.C25_last_value`
* `Pvxs.Props.C25_reposted`
* `Pvxs.Props.C27_after_finish`
* `Pvxs.Props.C27_after_stop`
* `Pvxs.Props.C29_shared_value`
* `Pvxs.Props.C34_cancel_in_builder`
* `Pvxs.Props.C35_error_lost`
* `Pvxs.Props.C35_get_lost`
* `Pvxs.Props.C35_twice`
* `Pvxs.Props.CMon.C36_late`
* `Pvxs.Props.CMon.C37_stale`
* `Pvxs.Props.CMon.C38_overack_reconnect`
* `Pvxs.Props.Ffo.C48_order`
* `Pvxs.Props.Ffo.C48_each`
* `Pvxs.Props.Txt.C55_hang`
* `Pvxs.Props.C59_cancel`
* `Pvxs.Props.C59_finish`
* `Pvxs.Props.C60_twice`
* `Pvxs.Props.CMon.C62_silent`
* `Pvxs.Props.Cfg.C64_host_v6`
* `Pvxs.Props.Cfg.C64_host`
* `Pvxs.Props.Grp.C68_wrong_client`
* `Pvxs.Props.Grp.C68_wrong_refusal`
* `Pvxs.Props.Grp.C68_half`
* `Pvxs.Props.Grp.C68_unasked`
* `Pvxs.Props.Fnm.C70_lenient`
* `Pvxs.Props.IocCred.C75_own_name`
* `Pvxs.Props.IocCred.C75_role_claim`
* `Pvxs.Props.RecPut.C76_refused`
* `Pvxs.Props.RecPut.C76_partial`
* `Pvxs.Props.RecPut.C76_waits`
* `Pvxs.Props.RecPut.C76_unmarked`
* `Pvxs.Props.RecPut.C76_not_waited`
* `Pvxs.Props.RecGet.C77_message`
* `Pvxs.Props.RecGet.C77_tag`
* `Pvxs.Props.Wait.C78_result`
* `Pvxs.Props.Wait.C78_after`
* `Pvxs.Props.Wait.C78_timeout`
* `Pvxs.Props.Wait.C78_interrupted`
* `Pvxs.Props.ServerPV.C82_race_partial`
* `Pvxs.Props.ServerPV.C82_hidden`
* `Pvxs.Props.RealScalar.C83_double_rounding`
* `Pvxs.Props.RealScalar.C83_copy`
* `Pvxs.Props.RealScalar.C83_parse`
* `Pvxs.Props.ClientConnect.C85_drop_other`
* `Pvxs.Props.ClientConnect.C85_drop_first`
* `Pvxs.Props.ClientConnect.C85_drop_new`
* `Pvxs.Props.ClientConnect.C85_throw_first`
* `Pvxs.Props.ClientConnect.C85_throw_down`
* `Pvxs.Props.ClientConnect.C85_throw_up`
* `Pvxs.Props.ClientConnect.C85_name`
* `Pvxs.Props.LinkScan.C87_twice`
* `Pvxs.Props.LinkScan.C87_error`
* `Pvxs.Props.LinkConf.C89_last`
* `Pvxs.Props.LinkConf.C89_mss`
* `Pvxs.Props.RealParse.C90_field`
* `Pvxs.Props.Discover.C92_ping_known`
* `Pvxs.Props.FlowCtl.C93_resumes`

## propext Quot.sound (330)

* `Pvxs.Props.C01_size_too_big`
* `Pvxs.Props.C02_layout`
* `Pvxs.Props.C03_string_too_long`
* `Pvxs.Props.C04_compact_form`
* `Pvxs.Props.C05_header_accept`
* `Pvxs.Props.C05_header_consumes`
* `Pvxs.Props.C06_int_inside`
* `Pvxs.Props.C06_size_inside`
* `Pvxs.Props.C06_selector_inside`
* `Pvxs.Props.C06_string_inside`
* `Pvxs.Props.C06_status_inside`
* `Pvxs.Props.C06_array_inside`
* `Pvxs.Props.C06_string_array_inside`
* `Pvxs.Props.C06_addr_inside`
* `Pvxs.Props.C06_mask_inside`
* `Pvxs.Props.C06_type_inside`
* `Pvxs.Props.C06_value_inside`
* `Pvxs.Props.C06_typed_value_inside`
* `Pvxs.Props.C06_update_inside`
* `Pvxs.Props.C07_v4_roundtrip`
* `Pvxs.Props.C07_v4_is_mapped`
* `Pvxs.Props.C07_v6_roundtrip_partial`
* `Pvxs.Props.C07_address_bytes_survive`
* `Pvxs.Props.C09_out_of_storage`
* `Pvxs.Props.C09_size_mismatch`
* `Pvxs.Props.C09_not_breaks_findSet`
* `Pvxs.Props.C09_or_assign_shrinks`
* `Pvxs.Props.C10_faithful`
* `Pvxs.Props.LinkMeta.C102_message_partial`
* `Pvxs.Props.LinkMeta.C102_message_cut`
* `Pvxs.Props.CliAddr.C104_send`
* `Pvxs.Props.MonStat.C105_reachable_partial`
* `Pvxs.Props.Tools.C106_call_status`
* `Pvxs.Props.Tools.C106_put_status_partial`
* `Pvxs.Props.Tools.C106_put_failed`
* `Pvxs.Props.Ifm.C107_loopback`
* `Pvxs.Props.Ifm.C107_clash`
* `Pvxs.Props.Ifm.C107_alias`
* `Pvxs.Props.Ifm.C107_gone`
* `Pvxs.Props.Ifm.C107_forgets`
* `Pvxs.Props.Ifm.C107_failed`
* `Pvxs.Props.Alive.C109_period`
* `Pvxs.Props.Alive.C109_attempt`
* `Pvxs.Props.Alive.C109_told`
* `Pvxs.Props.Alive.C109_mismatch`
* `Pvxs.Props.C11_redefinition_ignored`
* `Pvxs.Props.WQ.C110_turn`
* `Pvxs.Props.Fetch.C111_statuses`
* `Pvxs.Props.Fetch.C111_info_deaf`
* `Pvxs.Props.Fetch.C111_list_zero`
* `Pvxs.Props.Fetch.C111_listed_twice`
* `Pvxs.Props.Fetch.C111_listed_gone`
* `Pvxs.Props.Mem.C112_type_partial`
* `Pvxs.Props.Mem.C112_type_fresh`
* `Pvxs.Props.TestCase.C113_text`
* `Pvxs.Props.TestCase.C113_count`
* `Pvxs.Props.TestCase.C113_all_partial`
* `Pvxs.Props.TestCase.C113_eq`
* `Pvxs.Props.TestCase.C113_str`
* `Pvxs.Props.Shell.C114_diff_order`
* `Pvxs.Props.IocLife.C115_enabled`
* `Pvxs.Props.IocLife.C115_not_off`
* `Pvxs.Props.IocLife.C115_server_only`
* `Pvxs.Props.Vct.C116_or`
* `Pvxs.Props.Vct.C116_none`
* `Pvxs.Props.Vct.C116_too_many`
* `Pvxs.Props.Vct.C116_thirty_three`
* `Pvxs.Props.Vct.C116_search`
* `Pvxs.Props.Vct.C116_beacon`
* `Pvxs.Props.Vct.C116_mask`
* `Pvxs.Props.CliStat.C117_read`
* `Pvxs.Props.Once.C118_once`
* `Pvxs.Props.Once.C118_after`
* `Pvxs.Props.Once.C118_ok`
* `Pvxs.Props.Once.C118_failed`
* `Pvxs.Props.Once.C118_progress`
* `Pvxs.Props.Once.C118_recursive`
* `Pvxs.Props.Report.C119_tx`
* `Pvxs.Props.Report.C119_rx_partial`
* `Pvxs.Props.Report.C119_channels_tx`
* `Pvxs.Props.Report.C119_channels_rx_partial`
* `Pvxs.Props.Report.C119_read`
* `Pvxs.Props.C12_duplicate_accepted`
* `Pvxs.Props.Timer.C120_once`
* `Pvxs.Props.Timer.C120_quiet`
* `Pvxs.Props.Timer.C120_truthful`
* `Pvxs.Props.Timer.C120_cancelled`
* `Pvxs.Props.Timer.C120_returns`
* `Pvxs.Props.Timer.C120_null`
* `Pvxs.Props.Timer.C120_stopped`
* `Pvxs.Props.Timer.C120_freed_partial`
* `Pvxs.Props.Timer.C120_freed`
* `Pvxs.Props.Timer.C120_released`
* `Pvxs.Props.OutBuf.C121_ev`
* `Pvxs.Props.OutBuf.C121_ev_refused`
* `Pvxs.Props.OutBuf.C121_array_ev`
* `Pvxs.Props.OutBuf.C121_array_vector`
* `Pvxs.Props.OutBuf.C121_array_refused`
* `Pvxs.Props.OutBuf.C121_wire`
* `Pvxs.Props.OutBuf.C121_wire_vector`
* `Pvxs.Props.OutBuf.C121_wire_ev`
* `Pvxs.Props.OutBuf.C121_skip_partial`
* `Pvxs.Props.OutBuf.C121_skip`
* `Pvxs.Props.LogMsg.C122_prefix_partial`
* `Pvxs.Props.LogMsg.C122_long`
* `Pvxs.Props.LogMsg.C122_overflow`
* `Pvxs.Props.LogMsg.C122_names`
* `Pvxs.Props.LogMsg.C122_safe`
* `Pvxs.Props.LogMsg.C122_safe_false`
* `Pvxs.Props.SigInt.C123_stuck`
* `Pvxs.Props.InstCount.C124_close`
* `Pvxs.Props.InstCount.C124_exact_partial`
* `Pvxs.Props.InstCount.C124_alone`
* `Pvxs.Props.InstCount.C124_listed_partial`
* `Pvxs.Props.InstCount.C124_stays`
* `Pvxs.Props.InstCount.C124_exact_false`
* `Pvxs.Props.Indent.C125_indent`
* `Pvxs.Props.Indent.C125_back`
* `Pvxs.Props.Indent.C125_printed`
* `Pvxs.Props.Indent.C125_scopes`
* `Pvxs.Props.Indent.C125_within`
* `Pvxs.Props.Sock.C126_sent`
* `Pvxs.Props.Sock.C126_mcast_partial`
* `Pvxs.Props.ReplyRx.C127_truncated`
* `Pvxs.Props.ReplyRx.C127_beyond`
* `Pvxs.Props.ForcedServer.C128_refused`
* `Pvxs.Props.ForcedServer.C128_own`
* `Pvxs.Props.LinkWait.C129_two`
* `Pvxs.Props.C13_bool_array_raw`
* `Pvxs.Props.C17_program_names`
* `Pvxs.Props.C17_odd_name`
* `Pvxs.Props.C17_union_selection`
* `Pvxs.Props.C17_union_empty`
* `Pvxs.Props.C17_union_keeps`
* `Pvxs.Props.C17_compound_array`
* `Pvxs.Props.C18_scalar`
* `Pvxs.Props.C19_valid_iff`
* `Pvxs.Props.C19_isarray`
* `Pvxs.Props.C19_arrayOf`
* `Pvxs.Props.C19_scalarOf`
* `Pvxs.Props.C19_inverse`
* `Pvxs.Props.C19_preserve`
* `Pvxs.Props.C19_size`
* `Pvxs.Props.C19_storedAs`
* `Pvxs.Props.C19_name_injective`
* `Pvxs.Props.C19_null_not_valid`
* `Pvxs.Props.C23_stale_reply`
* `Pvxs.Props.C23_second_reply`
* `Pvxs.Props.C24_lost_close`
* `Pvxs.Props.C24_lost_close_error`
* `Pvxs.Props.C24_lost_close_monitor`
* `Pvxs.Props.C24_lost_close_info`
* `Pvxs.Props.C24_id_not_released`
* `Pvxs.Props.C24_reuse_abort`
* `Pvxs.Props.C25_content`
* `Pvxs.Props.C26_lost`
* `Pvxs.Props.C29_sharedpv`
* `Pvxs.Props.C30_missed_post`
* `Pvxs.Props.C30_not_forgotten`
* `Pvxs.Props.C31_last_twice`
* `Pvxs.Props.C31_first_twice`
* `Pvxs.Props.CMon.C37_batch`
* `Pvxs.Props.CMon.C38_overack_event`
* `Pvxs.Props.Src.C40_order`
* `Pvxs.Props.Src.C41_ignore_v6`
* `Pvxs.Props.Sea.C42_discover`
* `Pvxs.Props.Sea.C42_long`
* `Pvxs.Props.Sea.C42_long_two`
* `Pvxs.Props.Sea.C42_twice`
* `Pvxs.Props.Sea.C42_forced_searched`
* `Pvxs.Props.Bcn.C43_late`
* `Pvxs.Props.Cch.C44_used_dropped`
* `Pvxs.Props.Cfg.C45_merge_unique`
* `Pvxs.Props.Udp.receive_one`
* `Pvxs.Props.Udp.C47_aborts`
* `Pvxs.Props.Udp.C47_sticky`
* `Pvxs.Props.Udp.C47_once`
* `Pvxs.Props.Txt.C50_roundtrip`
* `Pvxs.Props.Txt.C50_injective`
* `Pvxs.Props.Lg.C51_same_name`
* `Pvxs.Props.Lif.C53_idle_partial`
* `Pvxs.Props.Lif.C53_stop_lost`
* `Pvxs.Props.Lif.C53_stop_early`
* `Pvxs.Props.C54_still_usable`
* `Pvxs.Props.C54_not_released`
* `Pvxs.Props.Txt.C55_split_partial`
* `Pvxs.Props.C56_segmented_ensure`
* `Pvxs.Props.C56_segmented_consume`
* `Pvxs.Props.C56_skip_partial`
* `Pvxs.Props.C57_union_choices`
* `Pvxs.Props.Scl.C58_assign_text`
* `Pvxs.Props.Scl.C58_bool_text`
* `Pvxs.Props.Cfg.C65_order`
* `Pvxs.Props.Grc.C67_dangling`
* `Pvxs.Props.Grc.C67_blank`
* `Pvxs.Props.Grp.C68_only_partial`
* `Pvxs.Props.Grp.C68_complete_partial`
* `Pvxs.Props.Grp.C68_once_partial`
* `Pvxs.Props.Grp.C68_order_partial`
* `Pvxs.Props.Grp.C68_permitted_partial`
* `Pvxs.Props.Grp.C68_atomic_partial`
* `Pvxs.Props.Grp.C68_locked_partial`
* `Pvxs.Props.Grp.C68_refused_partial`
* `Pvxs.Props.Grp.C68_nothing_partial`
* `Pvxs.Props.Grm.C69_unread`
* `Pvxs.Props.Grm.C69_race`
* `Pvxs.Props.Fnm.C70_root_partial`
* `Pvxs.Props.C71_same_id`
* `Pvxs.Props.C71_same_id_abort`
* `Pvxs.Props.C71_refused_at_once`
* `Pvxs.Props.C71_refused_later`
* `Pvxs.Props.C72_two`
* `Pvxs.Props.C72_two_refused`
* `Pvxs.Props.C72_close`
* `Pvxs.Props.Handshake.C74_always`
* `Pvxs.Props.Handshake.C74_user`
* `Pvxs.Props.IocCred.C75_roles`
* `Pvxs.Props.IocCred.C75_partial`
* `Pvxs.Props.IocCred.C75_write`
* `Pvxs.Props.IocCred.C75_host_partial`
* `Pvxs.Props.IocCred.C75_host_v6`
* `Pvxs.Props.RecPut.C76_permitted`
* `Pvxs.Props.RecPut.C76_one_reply`
* `Pvxs.Props.RecPut.C76_replied_partial`
* `Pvxs.Props.RecGet.C77_dbe_text`
* `Pvxs.Props.RecGet.C77_finds`
* `Pvxs.Props.RecGet.C77_archive`
* `Pvxs.Props.Wait.C78_partial`
* `Pvxs.Props.Wait.C78_second`
* `Pvxs.Props.PutBuild.C79_order`
* `Pvxs.Props.PutBuild.C79_twice`
* `Pvxs.Props.PutBuild.C79_lost`
* `Pvxs.Props.PutBuild.C79_struct`
* `Pvxs.Props.TypeDef.C80_odd_name`
* `Pvxs.Props.TypeDef.C80_duplicate`
* `Pvxs.Props.TypeDef.C80_as`
* `Pvxs.Props.TypeDef.C80_any`
* `Pvxs.Props.TypeDef.C80_failed`
* `Pvxs.Props.TypeDef.C80_as_any`
* `Pvxs.Props.ArrayConv.C81_bool`
* `Pvxs.Props.ArrayConv.C81_int_to_real`
* `Pvxs.Props.ArrayConv.C81_widen`
* `Pvxs.Props.ArrayConv.C81_narrow`
* `Pvxs.Props.ArrayConv.C81_octets_all`
* `Pvxs.Props.ArrayConv.C81_print_bool`
* `Pvxs.Props.ArrayConv.C81_parse_bool`
* `Pvxs.Props.ArrayConv.C81_bool_text`
* `Pvxs.Props.ArrayConv.C81_try`
* `Pvxs.Props.ArrayConv.C81_union`
* `Pvxs.Props.ArrayConv.C81_text`
* `Pvxs.Props.ArrayConv.C81_refused`
* `Pvxs.Props.ArrayConv.C81_empty`
* `Pvxs.Props.ArrayConv.C81_thaw`
* `Pvxs.Props.ArrayConv.C81_thaw_partial`
* `Pvxs.Props.ArrayConv.C81_value`
* `Pvxs.Props.ServerPV.C82_static`
* `Pvxs.Props.RealScalar.C83_to_double`
* `Pvxs.Props.RealScalar.C83_to_float_partial`
* `Pvxs.Props.RealScalar.C83_real`
* `Pvxs.Props.RealScalar.C83_real_ub`
* `Pvxs.Props.ClientInfo.C84_once`
* `Pvxs.Props.ClientInfo.C84_called`
* `Pvxs.Props.ClientInfo.C84_asks`
* `Pvxs.Props.ClientInfo.C84_cancel_partial`
* `Pvxs.Props.ClientInfo.C84_cancel_releases`
* `Pvxs.Props.ClientInfo.C84_cancel_failed`
* `Pvxs.Props.ClientConnect.C85_bad_server`
* `Pvxs.Props.LinkPut.C86_stuck`
* `Pvxs.Props.LinkPut.C86_early`
* `Pvxs.Props.LinkPut.C86_retry_empty`
* `Pvxs.Props.LinkPut.C86_retry_dropped`
* `Pvxs.Props.LinkPut.C86_process_lost`
* `Pvxs.Props.LinkPut.C86_forward_lost`
* `Pvxs.Props.LinkPut.C86_deadlock`
* `Pvxs.Props.LinkPut.C86_one_bad`
* `Pvxs.Props.LinkScan.C87_wake`
* `Pvxs.Props.LinkScan.C87_each`
* `Pvxs.Props.LinkScan.C87_drain`
* `Pvxs.Props.LinkScan.C87_scan_partial`
* `Pvxs.Props.LinkScan.C87_attach`
* `Pvxs.Props.LinkScan.C87_order`
* `Pvxs.Props.LinkRead.C88_together`
* `Pvxs.Props.LinkRead.C88_disconnected_partial`
* `Pvxs.Props.LinkRead.C88_ok_connected`
* `Pvxs.Props.LinkRead.C88_no_value`
* `Pvxs.Props.LinkRead.C88_missing`
* `Pvxs.Props.LinkRead.C88_stale_time`
* `Pvxs.Props.LinkRead.C88_no_time`
* `Pvxs.Props.LinkRead.C88_before_1990`
* `Pvxs.Props.LinkRead.C88_tag`
* `Pvxs.Props.LinkRead.C88_array_text`
* `Pvxs.Props.LinkRead.C88_no_alarm`
* `Pvxs.Props.LinkRead.C88_array_type`
* `Pvxs.Props.LinkRead.C88_elements`
* `Pvxs.Props.LinkConf.C89_monorder`
* `Pvxs.Props.RealParse.C90_array`
* `Pvxs.Props.RealParse.C90_array_float`
* `Pvxs.Props.RealParse.C90_array_text`
* `Pvxs.Props.RealParse.C90_array_text_float`
* `Pvxs.Props.GroupGet.C91_atomic`
* `Pvxs.Props.GroupGet.C91_error`
* `Pvxs.Props.GroupGet.C91_one`
* `Pvxs.Props.GroupGet.C91_ends`
* `Pvxs.Props.GroupGet.C91_choice`
* `Pvxs.Props.Discover.C92_race`
* `Pvxs.Props.Discover.C92_running`
* `Pvxs.Props.Discover.C92_terminated`
* `Pvxs.Props.Discover.C92_self_cancel`
* `Pvxs.Props.Discover.C92_deadlock`
* `Pvxs.Props.Discover.C92_cancel_other`
* `Pvxs.Props.Discover.C92_ping_late`
* `Pvxs.Props.Discover.C92_ping_new`
* `Pvxs.Props.FlowCtl.C93_ends`
* `Pvxs.Props.FlowCtl.C93_order`
* `Pvxs.Props.FlowCtl.C93_fill`
* `Pvxs.Props.FlowCtl.C93_unbounded`
* `Pvxs.Props.FlowCtl.C93_suspended`
* `Pvxs.Props.GJson.C94_silent`
* `Pvxs.Props.GJson.C94_abort_array`
* `Pvxs.Props.GJson.C94_abort_object`
* `Pvxs.Props.GJson.C94_bad_file`
* `Pvxs.Props.GLoad.C95_shell_lost`
* `Pvxs.Props.RecVal.C96_text`
* `Pvxs.Props.RecVal.C96_cut`
* `Pvxs.Props.RecVal.C96_nul`
* `Pvxs.Props.RecVal.C96_choices`
* `Pvxs.Props.RecVal.C96_long`
* `Pvxs.Props.RecVal.C96_full`
* `Pvxs.Props.RecVal.C96_description`
* `Pvxs.Props.RecVal.C96_none`

## propext Classical.choice Quot.sound (552)

* `Pvxs.Props.C01_size_roundtrip`
* `Pvxs.Props.C01_size_injective`
* `Pvxs.Props.C01_selector_roundtrip`
* `Pvxs.Props.C02_roundtrip`
* `Pvxs.Props.C02_array_roundtrip`
* `Pvxs.Props.C03_string_roundtrip`
* `Pvxs.Props.C03_string_array_roundtrip`
* `Pvxs.Props.C04_status_roundtrip_partial`
* `Pvxs.Props.C04_status_prefix`
* `Pvxs.Props.C05_header_roundtrip`
* `Pvxs.Props.C06_value_depth`
* `Pvxs.Props.C06_depth_unbounded`
* `Pvxs.Props.C08_bits_roundtrip`
* `Pvxs.Props.C08_no_trailing_zeros`
* `Pvxs.Props.C08_largest_masks_lost`
* `Pvxs.Props.C08_mask_roundtrip_partial`
* `Pvxs.Props.C09_construct`
* `Pvxs.Props.C09_findSet`
* `Pvxs.Props.C09_assign`
* `Pvxs.Props.C09_read_defined`
* `Pvxs.Props.C09_and`
* `Pvxs.Props.C09_or`
* `Pvxs.Props.C09_not`
* `Pvxs.Props.C09_onlySet_partial`
* `Pvxs.Props.C09_onlySet_range_diverges`
* `Pvxs.Props.C09_or_assign`
* `Pvxs.Props.C09_and_assign`
* `Pvxs.Props.C09_equal`
* `Pvxs.Props.C10_build`
* `Pvxs.Props.C10_type_roundtrip`
* `Pvxs.Props.C10_too_deep`
* `Pvxs.Props.C10_injective`
* `Pvxs.Props.Rpc.C100_args_partial`
* `Pvxs.Props.Rpc.C100_twice`
* `Pvxs.Props.Rpc.C100_none`
* `Pvxs.Props.Rpc.C100_call`
* `Pvxs.Props.Rpc.C100_unmarked`
* `Pvxs.Props.Rpc.C100_both`
* `Pvxs.Props.Rpc.C100_values`
* `Pvxs.Props.Rpc.C100_any`
* `Pvxs.Props.Rpc.C100_union`
* `Pvxs.Props.Rpc.C100_name`
* `Pvxs.Props.SrvAddr.C101_reachable_partial`
* `Pvxs.Props.SrvAddr.C101_udp`
* `Pvxs.Props.SrvAddr.C101_preferred`
* `Pvxs.Props.SrvAddr.C101_fallback`
* `Pvxs.Props.SrvAddr.C101_client`
* `Pvxs.Props.SrvAddr.C101_second`
* `Pvxs.Props.SrvAddr.C101_half`
* `Pvxs.Props.SrvAddr.C101_port`
* `Pvxs.Props.SrvAddr.C101_overlap`
* `Pvxs.Props.SrvAddr.C101_typo`
* `Pvxs.Props.LinkMeta.C102_limits_partial`
* `Pvxs.Props.LinkMeta.C102_missing`
* `Pvxs.Props.LinkMeta.C102_plain`
* `Pvxs.Props.LinkMeta.C102_disconnected`
* `Pvxs.Props.LinkMeta.C102_precision_partial`
* `Pvxs.Props.LinkMeta.C102_precision_cut`
* `Pvxs.Props.LinkMeta.C102_units`
* `Pvxs.Props.Mshim.C103_sent_partial`
* `Pvxs.Props.Mshim.C103_search_partial`
* `Pvxs.Props.Mshim.C103_unicast_partial`
* `Pvxs.Props.Mshim.C103_beacon`
* `Pvxs.Props.Mshim.C103_abort`
* `Pvxs.Props.Mshim.C103_abort_packet`
* `Pvxs.Props.CliAddr.C104_dests_partial`
* `Pvxs.Props.CliAddr.C104_servers_partial`
* `Pvxs.Props.CliAddr.C104_servers_malformed`
* `Pvxs.Props.CliAddr.C104_beacons_partial`
* `Pvxs.Props.CliAddr.C104_beacons_v6`
* `Pvxs.Props.CliAddr.C104_builds_partial`
* `Pvxs.Props.CliAddr.C104_limited`
* `Pvxs.Props.CliAddr.C104_twice`
* `Pvxs.Props.MonStat.C105_room`
* `Pvxs.Props.MonStat.C105_highest_partial`
* `Pvxs.Props.MonStat.C105_highest_since`
* `Pvxs.Props.MonStat.C105_reported`
* `Pvxs.Props.MonStat.C105_told_only`
* `Pvxs.Props.MonStat.C105_told`
* `Pvxs.Props.MonStat.C105_levels_partial`
* `Pvxs.Props.MonStat.C105_levels_void`
* `Pvxs.Props.MonStat.C105_percent`
* `Pvxs.Props.MonStat.C105_reported_since`
* `Pvxs.Props.Tools.C106_put_partial`
* `Pvxs.Props.Tools.C106_put_refused`
* `Pvxs.Props.Tools.C106_single`
* `Pvxs.Props.Tools.C106_put_unclear`
* `Pvxs.Props.Tools.C106_twice`
* `Pvxs.Props.Tools.C106_call_partial`
* `Pvxs.Props.Tools.C106_call_unclear`
* `Pvxs.Props.Tools.C106_call_twice`
* `Pvxs.Props.Ifm.C107_has_address`
* `Pvxs.Props.Ifm.C107_is_iface_partial`
* `Pvxs.Props.Ifm.C107_is_broadcast_partial`
* `Pvxs.Props.Ifm.C107_name_of_index`
* `Pvxs.Props.Ifm.C107_name_of_addr`
* `Pvxs.Props.Ifm.C107_index_of_partial`
* `Pvxs.Props.Ifm.C107_address_of_partial`
* `Pvxs.Props.Ifm.C107_all_external_partial`
* `Pvxs.Props.Ifm.C107_rate`
* `Pvxs.Props.Ifm.C107_often`
* `Pvxs.Props.TyTxt.C108_typedef_partial`
* `Pvxs.Props.TyTxt.C108_empty`
* `Pvxs.Props.TyTxt.C108_value_total`
* `Pvxs.Props.TyTxt.C108_value_partial`
* `Pvxs.Props.TyTxt.C108_value_exact_partial`
* `Pvxs.Props.TyTxt.C108_array_id`
* `Pvxs.Props.TyTxt.C108_quote`
* `Pvxs.Props.TyTxt.C108_quote_value`
* `Pvxs.Props.TyTxt.C108_nul`
* `Pvxs.Props.Alive.C109_kept_partial`
* `Pvxs.Props.Alive.C109_same`
* `Pvxs.Props.Alive.C109_any_client`
* `Pvxs.Props.Alive.C109_dead_server`
* `Pvxs.Props.Alive.C109_dead_client`
* `Pvxs.Props.C11_replay_partial`
* `Pvxs.Props.C11_define`
* `Pvxs.Props.C11_reference`
* `Pvxs.Props.C11_undefined_refused`
* `Pvxs.Props.WQ.C110_order`
* `Pvxs.Props.WQ.C110_room`
* `Pvxs.Props.WQ.C110_awaited`
* `Pvxs.Props.WQ.C110_printed`
* `Pvxs.Props.WQ.C110_status`
* `Pvxs.Props.WQ.C110_returns`
* `Pvxs.Props.WQ.C110_endless`
* `Pvxs.Props.WQ.C110_refused`
* `Pvxs.Props.Fetch.C111_printed`
* `Pvxs.Props.Fetch.C111_all_printed`
* `Pvxs.Props.Fetch.C111_get_zero`
* `Pvxs.Props.Fetch.C111_get_one`
* `Pvxs.Props.Fetch.C111_get_two`
* `Pvxs.Props.Fetch.C111_get_returns`
* `Pvxs.Props.Fetch.C111_get_error`
* `Pvxs.Props.Fetch.C111_none`
* `Pvxs.Props.Fetch.C111_info_zero`
* `Pvxs.Props.Fetch.C111_info_returns`
* `Pvxs.Props.Fetch.C111_info_errors`
* `Pvxs.Props.Fetch.C111_listed`
* `Pvxs.Props.Fetch.C111_listed_all`
* `Pvxs.Props.Mem.C112_value`
* `Pvxs.Props.Mem.C112_typed`
* `Pvxs.Props.Mem.C112_tower`
* `Pvxs.Props.Mem.C112_hundred`
* `Pvxs.Props.Mem.C112_unbounded`
* `Pvxs.Props.Mem.C112_asks`
* `Pvxs.Props.Mem.C112_asks_members`
* `Pvxs.Props.Mem.C112_asks_paid`
* `Pvxs.Props.TestCase.C113_arr`
* `Pvxs.Props.Shell.C114_diff`
* `Pvxs.Props.Shell.C114_diff_none`
* `Pvxs.Props.Shell.C114_show`
* `Pvxs.Props.Shell.C114_dbpvar`
* `Pvxs.Props.Shell.C114_dbpvar_le`
* `Pvxs.Props.Shell.C114_dbpvar_links`
* `Pvxs.Props.Vct.C116_net_partial`
* `Pvxs.Props.Vct.C116_host`
* `Pvxs.Props.Vct.C116_zero`
* `Pvxs.Props.CliStat.C117_conserved`
* `Pvxs.Props.CliStat.C117_server`
* `Pvxs.Props.CliStat.C117_pipeline`
* `Pvxs.Props.CliStat.C117_max_partial`
* `Pvxs.Props.CliStat.C117_max_first_partial`
* `Pvxs.Props.CliStat.C117_max_le`
* `Pvxs.Props.CliStat.C117_max_now`
* `Pvxs.Props.Once.C118_fatal`
* `Pvxs.Props.C12_wellformed_partial`
* `Pvxs.Props.C12_built_wellformed`
* `Pvxs.Props.C12_unusable_or_consistent`
* `Pvxs.Props.C12_construct_safe`
* `Pvxs.Props.Timer.C120_still`
* `Pvxs.Props.OutBuf.C121_vector`
* `Pvxs.Props.LogMsg.C122_abort`
* `Pvxs.Props.LogMsg.C122_dump`
* `Pvxs.Props.LogMsg.C122_lines`
* `Pvxs.Props.SigInt.C123_once`
* `Pvxs.Props.SigInt.C123_inside`
* `Pvxs.Props.SigInt.C123_alone`
* `Pvxs.Props.SigInt.C123_refused`
* `Pvxs.Props.SigInt.C123_heard`
* `Pvxs.Props.SigInt.C123_restored`
* `Pvxs.Props.SigInt.C123_ends`
* `Pvxs.Props.SigInt.C123_open_partial`
* `Pvxs.Props.SigInt.C123_sound_partial`
* `Pvxs.Props.SigInt.C123_always`
* `Pvxs.Props.Sock.C126_once`
* `Pvxs.Props.Sock.C126_held`
* `Pvxs.Props.Sock.C126_closed`
* `Pvxs.Props.Sock.C126_move`
* `Pvxs.Props.ReplyRx.C127_datagram_partial`
* `Pvxs.Props.ReplyRx.C127_message_partial`
* `Pvxs.Props.ReplyRx.C127_done`
* `Pvxs.Props.ReplyRx.C127_pong`
* `Pvxs.Props.ReplyRx.C127_history`
* `Pvxs.Props.ForcedServer.C128_given_partial`
* `Pvxs.Props.ForcedServer.C128_any`
* `Pvxs.Props.ForcedServer.C128_shared`
* `Pvxs.Props.LinkWait.C129_wakes_partial`
* `Pvxs.Props.LinkWait.C129_ends`
* `Pvxs.Props.LinkWait.C129_looks`
* `Pvxs.Props.LinkWait.C129_continues_partial`
* `Pvxs.Props.C13_value_partial`
* `Pvxs.Props.C13_type_and_value_partial`
* `Pvxs.Props.C13_union_array`
* `Pvxs.Props.C13_union_array_flattened`
* `Pvxs.Props.C14_update_partial`
* `Pvxs.Props.C15_step`
* `Pvxs.Props.C15_history`
* `Pvxs.Props.C15_isMarked`
* `Pvxs.Props.C15_clear`
* `Pvxs.Props.C15_clear_all`
* `Pvxs.Props.C16_iall`
* `Pvxs.Props.C16_ichildren`
* `Pvxs.Props.C16_imarked`
* `Pvxs.Props.C17_assign_partial`
* `Pvxs.Props.Lkp.C18_partial`
* `Pvxs.Props.Lkp.C18_modify_partial`
* `Pvxs.Props.C18_dotted_partial`
* `Pvxs.Props.Lkp.C18_throws`
* `Pvxs.Props.Lkp.C18_odd_name`
* `Pvxs.Props.C20_chunks`
* `Pvxs.Props.C20_messages`
* `Pvxs.Props.C20_garbage`
* `Pvxs.Props.C21_segments`
* `Pvxs.Props.C21_violation`
* `Pvxs.Props.C22_replies`
* `Pvxs.Props.C22_setup`
* `Pvxs.Props.C22_silence`
* `Pvxs.Props.C22_destroy`
* `Pvxs.Props.C22_answer`
* `Pvxs.Props.C23_reply_partial`
* `Pvxs.Props.C24_at_most_once`
* `Pvxs.Props.C24_teardown`
* `Pvxs.Props.C24_disconnect_partial`
* `Pvxs.Props.C24_channel_partial`
* `Pvxs.Props.C24_cancel`
* `Pvxs.Props.C25_order_partial`
* `Pvxs.Props.C25_bound`
* `Pvxs.Props.C26_last`
* `Pvxs.Props.C26_complete`
* `Pvxs.Props.C26_refused`
* `Pvxs.Props.C26_delivered_partial`
* `Pvxs.Props.C26_stuck`
* `Pvxs.Props.C27_granted_partial`
* `Pvxs.Props.C27_granted_running`
* `Pvxs.Props.C28_scheduled_partial`
* `Pvxs.Props.C28_stall`
* `Pvxs.Props.C29_independent_partial`
* `Pvxs.Props.C30_converges_partial`
* `Pvxs.Props.C30_value`
* `Pvxs.Props.C30_fetch`
* `Pvxs.Props.C30_order_partial`
* `Pvxs.Props.C30_calls_partial`
* `Pvxs.Props.C30_attaches`
* `Pvxs.Props.C30_stays`
* `Pvxs.Props.C30_forgotten`
* `Pvxs.Props.C31_open`
* `Pvxs.Props.C31_none_waits`
* `Pvxs.Props.C31_post_refused`
* `Pvxs.Props.C31_post`
* `Pvxs.Props.C31_fetch_refused`
* `Pvxs.Props.C31_close`
* `Pvxs.Props.C31_clients_partial`
* `Pvxs.Props.C32_mask`
* `Pvxs.Props.C32_refused`
* `Pvxs.Props.C32_testmask`
* `Pvxs.Props.C32_sent_partial`
* `Pvxs.Props.C32_sends_more`
* `Pvxs.Props.C33_accepts`
* `Pvxs.Props.C33_refused`
* `Pvxs.Props.C33_result`
* `Pvxs.Props.C33_field`
* `Pvxs.Props.C33_selects`
* `Pvxs.Props.C33_asksAll`
* `Pvxs.Props.C33_lenient`
* `Pvxs.Props.C33_strict`
* `Pvxs.Props.C34_once`
* `Pvxs.Props.C34_result`
* `Pvxs.Props.C34_outcome`
* `Pvxs.Props.C34_cancelled`
* `Pvxs.Props.C34_no_null`
* `Pvxs.Props.C35_answered_partial`
* `Pvxs.Props.C35_disconnect`
* `Pvxs.Props.C35_ignored`
* `Pvxs.Props.CMon.C36_told`
* `Pvxs.Props.CMon.C36_count`
* `Pvxs.Props.CMon.C36_once_partial`
* `Pvxs.Props.CMon.C36_more`
* `Pvxs.Props.CMon.C37_order`
* `Pvxs.Props.CMon.C37_pipeline`
* `Pvxs.Props.CMon.C37_latest_partial`
* `Pvxs.Props.CMon.C37_bound_partial`
* `Pvxs.Props.CMon.C37_bound_data`
* `Pvxs.Props.CMon.C37_finished_last`
* `Pvxs.Props.CMon.C38_popped`
* `Pvxs.Props.CMon.C38_window_partial`
* `Pvxs.Props.Id.C39_server`
* `Pvxs.Props.Id.C39_server_gives`
* `Pvxs.Props.Id.C39_request`
* `Pvxs.Props.Id.C39_request_gives`
* `Pvxs.Props.Id.C39_channel`
* `Pvxs.Props.Id.C39_channel_gives`
* `Pvxs.Props.Id.C39_channel_hang`
* `Pvxs.Props.Src.C40_first_partial`
* `Pvxs.Props.Src.C40_replies_partial`
* `Pvxs.Props.Src.C40_bytes`
* `Pvxs.Props.Src.C40_throw_abort`
* `Pvxs.Props.Src.C40_empty_name`
* `Pvxs.Props.Src.C41_udp_sound`
* `Pvxs.Props.Src.C41_udp_complete_partial`
* `Pvxs.Props.Src.C41_tcp_partial`
* `Pvxs.Props.Src.C41_tcp_protocols`
* `Pvxs.Props.Sea.C42_scheduled`
* `Pvxs.Props.Sea.C42_alive`
* `Pvxs.Props.Sea.C42_tick`
* `Pvxs.Props.Sea.C42_initial`
* `Pvxs.Props.Sea.C42_again`
* `Pvxs.Props.Bcn.C43_story`
* `Pvxs.Props.Bcn.C43_same`
* `Pvxs.Props.Bcn.C43_change`
* `Pvxs.Props.Bcn.C43_new`
* `Pvxs.Props.Bcn.C43_full`
* `Pvxs.Props.Bcn.C43_clean`
* `Pvxs.Props.Bcn.C43_clean_off`
* `Pvxs.Props.Bcn.C43_heard`
* `Pvxs.Props.Bcn.C43_heard_story`
* `Pvxs.Props.Cch.C44_referenced`
* `Pvxs.Props.Cch.C44_share`
* `Pvxs.Props.Cch.C44_distinct`
* `Pvxs.Props.Cch.C44_drops`
* `Pvxs.Props.Cch.C44_fresh`
* `Pvxs.Props.Cch.C44_swept`
* `Pvxs.Props.Cch.C44_first_pass`
* `Pvxs.Props.Cfg.C45_merge`
* `Pvxs.Props.Cfg.C45_client`
* `Pvxs.Props.Cfg.C45_server`
* `Pvxs.Props.Cfg.C46_timeout`
* `Pvxs.Props.Cfg.C46_server_ports_partial`
* `Pvxs.Props.Cfg.C46_client_ports_partial`
* `Pvxs.Props.Cfg.C46_wrap`
* `Pvxs.Props.Udp.C47_search`
* `Pvxs.Props.Udp.C47_beacon`
* `Pvxs.Props.Udp.C47_forward`
* `Pvxs.Props.Udp.C47_passed_on`
* `Pvxs.Props.Udp.C47_abort_iff`
* `Pvxs.Props.Udp.C47_delivered`
* `Pvxs.Props.Ffo.C48_bound`
* `Pvxs.Props.Ffo.C48_readers`
* `Pvxs.Props.Ffo.C48_writers`
* `Pvxs.Props.Ffo.C48_no_lost_wakeup`
* `Pvxs.Props.Arr.C49_frozen`
* `Pvxs.Props.Arr.C49_freeze`
* `Pvxs.Props.Arr.C49_thaw`
* `Pvxs.Props.Arr.C49_at_partial`
* `Pvxs.Props.Arr.C49_at_end`
* `Pvxs.Props.Arr.C49_resize`
* `Pvxs.Props.Txt.C50_printable`
* `Pvxs.Props.Txt.C50_quoted`
* `Pvxs.Props.Lg.C51_level_partial`
* `Pvxs.Props.Lg.C51_env`
* `Pvxs.Props.Evl.C52_order_partial`
* `Pvxs.Props.Evl.C52_call_partial`
* `Pvxs.Props.Evl.C52_stop_partial`
* `Pvxs.Props.Evl.C52_quiet_partial`
* `Pvxs.Props.Evl.C52_progress_partial`
* `Pvxs.Props.Evl.C52_drains_partial`
* `Pvxs.Props.Evl.C52_lost`
* `Pvxs.Props.Lif.C53_turns_partial`
* `Pvxs.Props.Lif.C53_start_partial`
* `Pvxs.Props.Lif.C53_stop_partial`
* `Pvxs.Props.Lif.C53_closed_partial`
* `Pvxs.Props.Lif.C53_beacon_partial`
* `Pvxs.Props.Lif.C53_accept_partial`
* `Pvxs.Props.Lif.C53_search_partial`
* `Pvxs.Props.Lif.C53_started_partial`
* `Pvxs.Props.Lif.C53_stopped_partial`
* `Pvxs.Props.Lif.C53_serves_partial`
* `Pvxs.Props.Lif.C53_returns_partial`
* `Pvxs.Props.Txt.C55_diff`
* `Pvxs.Props.Same.C57_partial`
* `Pvxs.Props.Same.C57_symmetric_partial`
* `Pvxs.Props.Scl.C58_assign_signed`
* `Pvxs.Props.Scl.C58_assign_unsigned`
* `Pvxs.Props.Scl.C58_read_signed`
* `Pvxs.Props.Scl.C58_read_unsigned`
* `Pvxs.Props.Scl.C58_bool`
* `Pvxs.Props.Scl.C58_text_unsigned`
* `Pvxs.Props.Scl.C58_text_signed`
* `Pvxs.Props.Scl.C58_print`
* `Pvxs.Props.Scl.C58_text_roundtrip`
* `Pvxs.Props.Scl.C58_text_roundtrip_unsigned`
* `Pvxs.Props.Scl.C58_copy`
* `Pvxs.Props.C59_onStart_partial`
* `Pvxs.Props.C60_reExec`
* `Pvxs.Props.C60_auto_partial`
* `Pvxs.Props.CMon.C61_no_stall`
* `Pvxs.Props.CMon.C62_told_partial`
* `Pvxs.Props.CMon.C62_over`
* `Pvxs.Props.CMon.C63_pointers_partial`
* `Pvxs.Props.Cfg.C64_partial`
* `Pvxs.Props.Cfg.C64_ttl_zero`
* `Pvxs.Props.Cfg.C65_server_partial`
* `Pvxs.Props.Cfg.C65_client_partial`
* `Pvxs.Props.ConfigTime.C65_server_timeout_partial`
* `Pvxs.Props.ConfigTime.C65_client_timeout_partial`
* `Pvxs.Props.ConfigTime.C65_timeout_text`
* `Pvxs.Props.ConfigTime.C65_timeout_lossy`
* `Pvxs.Props.Bcn.C66_limit`
* `Pvxs.Props.Bcn.C66_none`
* `Pvxs.Props.Bcn.C66_accepts`
* `Pvxs.Props.Bcn.C66_first`
* `Pvxs.Props.Bcn.C66_fast`
* `Pvxs.Props.Bcn.C66_clock`
* `Pvxs.Props.Grc.C67_partial`
* `Pvxs.Props.Grc.C67_incomplete_partial`
* `Pvxs.Props.Grm.C69_silent_partial`
* `Pvxs.Props.Grm.C69_first_partial`
* `Pvxs.Props.Grm.C69_update_partial`
* `Pvxs.Props.Grm.C69_prompt_partial`
* `Pvxs.Props.Grm.C69_complete_partial`
* `Pvxs.Props.Grm.C69_event_partial`
* `Pvxs.Props.Fnm.C70_partial`
* `Pvxs.Props.Fnm.C70_unique_partial`
* `Pvxs.Props.Fnm.C70_all_partial`
* `Pvxs.Props.Fnm.C70_empty_part_partial`
* `Pvxs.Props.C71_partial`
* `Pvxs.Props.C71_connects_partial`
* `Pvxs.Props.C72_partial`
* `Pvxs.Props.C73_partial`
* `Pvxs.Props.C73_stays_closed`
* `Pvxs.Props.Handshake.C74_agree`
* `Pvxs.Props.Handshake.C74_select`
* `Pvxs.Props.Handshake.C74_truncated`
* `Pvxs.Props.Handshake.C74_history`
* `Pvxs.Props.Handshake.C74_partial`
* `Pvxs.Props.Handshake.C74_sticky`
* `Pvxs.Props.RecGet.C77_status`
* `Pvxs.Props.RecGet.C77_time`
* `Pvxs.Props.RecGet.C77_get`
* `Pvxs.Props.RecGet.C77_partial`
* `Pvxs.Props.RecGet.C77_first`
* `Pvxs.Props.RecGet.C77_dbe`
* `Pvxs.Props.PutBuild.C79_partial`
* `Pvxs.Props.PutBuild.C79_refused`
* `Pvxs.Props.PutBuild.C79_same`
* `Pvxs.Props.PutBuild.fieldOf_index`
* `Pvxs.Props.TypeDef.C80_copy`
* `Pvxs.Props.TypeDef.C80_append_partial`
* `Pvxs.Props.TypeDef.C80_as_code`
* `Pvxs.Props.ArrayConv.C81_integers`
* `Pvxs.Props.ArrayConv.C81_real_bool`
* `Pvxs.Props.ArrayConv.C81_real_to_int`
* `Pvxs.Props.ArrayConv.C81_real_ub`
* `Pvxs.Props.ArrayConv.C81_print_partial`
* `Pvxs.Props.ArrayConv.C81_octets`
* `Pvxs.Props.ArrayConv.C81_parse`
* `Pvxs.Props.ServerPV.C82_channels`
* `Pvxs.Props.ServerPV.C82_info`
* `Pvxs.Props.ServerPV.C82_other`
* `Pvxs.Props.ServerPV.C82_no_op`
* `Pvxs.Props.ServerPV.C82_once`
* `Pvxs.Props.ServerPV.C82_silent`
* `Pvxs.Props.ServerPV.C82_help`
* `Pvxs.Props.RealScalar.C83_read_int`
* `Pvxs.Props.RealScalar.C83_assign_int`
* `Pvxs.Props.RealScalar.C83_bool`
* `Pvxs.Props.RealScalar.C83_text`
* `Pvxs.Props.RealScalar.C83_text_special`
* `Pvxs.Props.RealScalar.C83_text_exact`
* `Pvxs.Props.RealScalar.C83_text_lossy`
* `Pvxs.Props.ClientInfo.C84_type`
* `Pvxs.Props.ClientInfo.C84_error`
* `Pvxs.Props.ClientInfo.C84_over`
* `Pvxs.Props.ClientInfo.C84_deep`
* `Pvxs.Props.ClientConnect.C85_told_partial`
* `Pvxs.Props.ClientConnect.C85_alternate_partial`
* `Pvxs.Props.ClientConnect.C85_poll_partial`
* `Pvxs.Props.ClientConnect.C85_gone_partial`
* `Pvxs.Props.LinkPut.C86_sound`
* `Pvxs.Props.LinkPut.C86_last_partial`
* `Pvxs.Props.LinkPut.C86_delivered_partial`
* `Pvxs.Props.LinkPut.C86_process_partial`
* `Pvxs.Props.LinkPut.C86_complete_partial`
* `Pvxs.Props.LinkRead.C88_read_partial`
* `Pvxs.Props.LinkRead.C88_plain_partial`
* `Pvxs.Props.LinkConf.C89_options_partial`
* `Pvxs.Props.RealParse.C90_nearest_partial`
* `Pvxs.Props.RealParse.C90_exact`
* `Pvxs.Props.RealParse.C90_large`
* `Pvxs.Props.RealParse.C90_words`
* `Pvxs.Props.RealParse.C90_only`
* `Pvxs.Props.RealParse.C90_tiny`
* `Pvxs.Props.RealParse.C90_min`
* `Pvxs.Props.RealParse.C90_back`
* `Pvxs.Props.RealParse.C90_whole`
* `Pvxs.Props.RealParse.C90_special`
* `Pvxs.Props.GroupGet.C91_each_partial`
* `Pvxs.Props.GroupGet.C91_const_missing`
* `Pvxs.Props.GroupGet.C91_not_one`
* `Pvxs.Props.Discover.C92_told_partial`
* `Pvxs.Props.Discover.C92_ended_partial`
* `Pvxs.Props.Discover.C92_found`
* `Pvxs.Props.FlowCtl.C93_done`
* `Pvxs.Props.GJson.C94_recorded`
* `Pvxs.Props.GJson.C94_warned`
* `Pvxs.Props.GJson.C94_warned_first`
* `Pvxs.Props.GJson.C94_warned_again`
* `Pvxs.Props.GJson.C94_abort_order`
* `Pvxs.Props.GJson.C94_abort_null`
* `Pvxs.Props.GJson.C94_wrong_group`
* `Pvxs.Props.GJson.C94_rest_lost`
* `Pvxs.Props.GJson.C94_empty_field`
* `Pvxs.Props.GLoad.C95_files`
* `Pvxs.Props.GLoad.C95_groups`
* `Pvxs.Props.GLoad.C95_no_file`
* `Pvxs.Props.GLoad.C95_star`
* `Pvxs.Props.RecVal.C96_get`
* `Pvxs.Props.RecVal.C96_put`
* `Pvxs.Props.RecVal.C96_same`
* `Pvxs.Props.RecVal.C96_index`
* `Pvxs.Props.RecVal.C96_wraps`
* `Pvxs.Props.RecVal.C96_array`
* `Pvxs.Props.RecVal.C96_array_cut`
* `Pvxs.Props.RecVal.C96_extra`
* `Pvxs.Props.NT.C97_scalar`
* `Pvxs.Props.NT.C97_scalar_refused`
* `Pvxs.Props.NT.C97_enum`
* `Pvxs.Props.NT.C97_table`
* `Pvxs.Props.NT.C97_uri`
* `Pvxs.Props.NT.C97_ndarray`
* `Pvxs.Props.NT.C97_ndarray_float`
* `Pvxs.Props.NT.C97_table_duplicate`
* `Pvxs.Props.NT.C97_table_compound`
* `Pvxs.Props.GroupType.C98_fields`
* `Pvxs.Props.GroupType.C98_exactly`
* `Pvxs.Props.GroupType.C98_only`
* `Pvxs.Props.GroupType.C98_structure`
* `Pvxs.Props.GroupType.C98_element`
* `Pvxs.Props.GroupType.C98_disagree`
* `Pvxs.Props.Prt.C99_delta_partial`
* `Pvxs.Props.Prt.C99_order`
* `Pvxs.Props.Prt.C99_array`
* `Pvxs.Props.Prt.C99_line`
* `Pvxs.Props.Prt.C99_content`
* `Pvxs.Props.Prt.C99_tree`
* `Pvxs.Props.Prt.C99_int8`
* `Pvxs.Props.Prt.C99_choice`
* `Pvxs.Props.Prt.C99_any`
* `Pvxs.Props.Prt.C99_limit`
* `Pvxs.Props.Prt.C99_elements`
* `Pvxs.Props.Prt.C99_scalars`
* `Pvxs.Props.Prt.C99_type`
